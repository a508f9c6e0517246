import Verif.Mga.Gym
import Verif.Lagr.KepRun

/-!
# Chromosomes of the Cassini problems that raise (C77)

The exception of the Lambert problem for a polar leg is not out of reach: while Venus goes around the Sun, the projection of
its position on the ecliptic passes exactly opposite to the one of the Earth at launch, and as the orbits are inclined to
each other the plane of that leg contains the pole of the ecliptic. The date is found with the intermediate value theorem.
-/

namespace Kep3.Mga
open Real V3

/-! ## Positions of the planets in terms of the eccentric anomaly -/

/-- The position on an ellipse. -/
noncomputable def ellPos (a e i Om om E : ℝ) : V3 ℝ :=
  (a * (cos E - e)) • colP i Om om + (a * √(1 - e ^ 2) * sin E) • colQ i Om om

theorem jpl_state {sv : Solver} (hsv : sv.Sound) (hq : sv.Quick) (info : Res String) {s : List Char} {p : JplLp}
    (hp : JplLp.ofName s = .ok p) {t : ℝ} (h1 : -73048 < t) (h2 : t < 18263) {T : ℝ} {u : Arr6} (hT : T * 36525 = t - 1 / 2)
    (hu : ∀ i, u i = p.elements0 i + p.elementsDot i * T) {E : ℝ} {k : ℤ}
    (hE : E - u 1 * sin E = (u 3 - u 4) * (π / 180) + 2 * π * k) (hc : cos E ≠ -1) :
    ∃ x : RV ℝ, Planet.eph (p.udpla sv info) t = .ok (spread (some x)) ∧
      x.r = AU • ellPos (u 0) (u 1) (u 2 * (π / 180)) (u 5 * (π / 180)) ((u 4 - u 5) * (π / 180)) E := by
  obtain ⟨n, el, r, f, mu, hd, d1, d2, d3, -⟩ := JplLp.ofName_ok hp
  obtain ⟨c1, c2⟩ := century h1 h2
  have hTT : (t - 0.5) / 36525 = T := by
    rw [div_eq_iff (by norm_num), hT]; norm_num
  rw [hTT] at c1 c2
  obtain ⟨s1, s2, s3, s4, s5⟩ := JplLp.secular hd c1 c2
  have hup : p.updated t = u := by
    funext i; rw [hu]; unfold JplLp.updated; simp only [hTT]
  have hu' : ∀ i, u i = el.1 i + el.2 i * T := fun i => by rw [hu, d1, d2]
  rw [← hu'] at s1 s2 s3 s4 s5
  have hrange : ¬ (t ≤ -73048 ∨ 18263 ≤ t) := by push Not; exact ⟨h1, h2⟩
  have hD : DEG2RAD = π / 180 := rfl
  obtain ⟨M, hM⟩ : ∃ M, M = (u 3 - u 4) * (π / 180) := ⟨_, rfl⟩
  have hMd : M = (u 3 - u 4) * DEG2RAD := hM
  rw [← hM] at hE
  have hae : 0 < u 0 * AU * (1 - u 1) := mul_pos (mul_pos s1 AU_pos) (by linarith)
  have hne : m2e sv M (u 1) ≠ .err .domainError := (C14_error_only_from_solver sv hq M (u 1) _).1
  obtain ⟨E', hE', a1, a2, ⟨j, hj⟩, huniq⟩ := (C14_m2e sv hsv s2.le s3 M).resolve_left hne
  -- the anomaly of the code is the given one up to full turns
  obtain ⟨l, hl, hsl, hcl⟩ := atan2_crop E
  have hmem := atan2_mem (sin E) (cos E)
  have hEE : atan2 (sin E) (cos E) = E' := by
    refine huniq _ hmem.1 hmem.2 ⟨k + l, ?_⟩
    rw [hsl, hl]
    push_cast
    linarith
  have hsE : sin E' = sin E := by rw [← hEE]; exact hsl
  have hcE : cos E' = cos E := by rw [← hEE]; exact hcl
  have a3 : E' ≠ π := by
    rintro rfl
    rw [cos_pi] at hcE
    exact hc hcE.symm
  have a4 : E' < π := lt_of_le_of_ne a2 a3
  obtain ⟨f, hf2, f1, f2, -, fc, fs⟩ := (C12_ellipse s2.le s3).1 E' a1 a4
  set q : Par := { a := u 0 * AU, e := u 1, i := u 2 * DEG2RAD, Om := u 5 * DEG2RAD, om := (u 4 - u 5) * DEG2RAD, f := f } with hqd
  have hg : q.Good := by
    refine ⟨s2.le, hae, ?_⟩
    have h3 : -u 1 ≤ u 1 * cos f := by
      have := mul_le_mul_of_nonneg_left (neg_one_le_cos f) s2.le
      linarith
    show 0 < 1 + u 1 * cos f
    linarith
  have hm : m2f sv M (u 1) = .ok (some f) := by
    unfold m2f; rw [if_neg s3.not_ge, hE', Res.ok_bind]; simp [hf2]
  have hf : JplLp.fElements sv p t = .ok (some q) := by
    unfold JplLp.fElements
    rw [if_neg hrange]
    simp only [hup, ← hMd, hm, Res.ok_bind, Res.pure_eq]
    rfl
  refine ⟨parState q MU_SUN, ?_, ?_⟩
  · show JplLp.eph sv p t = _
    unfold JplLp.eph
    rw [hf]
    simp only [Res.ok_bind, d3, par2ic_run hg MU_SUN_pos]
    rfl
  · have ha : 0 < u 0 * AU := mul_pos s1 AU_pos
    obtain ⟨b, hb, hab⟩ : ∃ b : ℝ, 0 < b ∧ u 0 * AU = 1 / b ^ 2 := by
      refine ⟨1 / √(u 0 * AU), by positivity, ?_⟩
      rw [div_pow, one_pow, sq_sqrt ha.le]
      field_simp
    rw [parState_ell hg s3 hb MU_SUN_pos hab fc fs]
    unfold ellPos
    show ((cos E' - u 1) / b ^ 2) • _ + (√(1 - u 1 ^ 2) * sin E' / b ^ 2) • _ = _
    rw [hsE, hcE]
    have e1 : (cos E - u 1) / b ^ 2 = AU * (u 0 * (cos E - u 1)) := by
      rw [div_eq_mul_one_div, ← hab]; ring
    have e2 : √(1 - u 1 ^ 2) * sin E / b ^ 2 = AU * (u 0 * √(1 - u 1 ^ 2) * sin E) := by
      rw [div_eq_mul_one_div, ← hab]; ring
    rw [e1, e2]
    show _ • colP (u 2 * (π / 180)) (u 5 * (π / 180)) ((u 4 - u 5) * (π / 180))
      + _ • colQ (u 2 * (π / 180)) (u 5 * (π / 180)) ((u 4 - u 5) * (π / 180)) = _
    generalize colP _ _ _ = P
    generalize colQ _ _ _ = Q
    ext <;> simp <;> ring

/-- A planet is not at its apocentre on two consecutive days. -/
theorem jpl_number {sv : Solver} (hsv : sv.Sound) (hq : sv.Quick) (info : Res String) {s : List Char} {p : JplLp}
    (hp : JplLp.ofName s = .ok p) {t : ℝ} (h1 : -73048 < t) (h2 : t + 1 < 18263) :
    ∃ d : ℝ, 0 ≤ d ∧ d ≤ 1 ∧ ∃ x, Planet.eph (p.udpla sv info) (t + d) = .ok (spread (some x)) := by
  have key : ∀ d, 0 ≤ d → d ≤ 1 → cos ((p.elements0 3 + p.elementsDot 3 * ((t + d - 1 / 2) / 36525)
      - (p.elements0 4 + p.elementsDot 4 * ((t + d - 1 / 2) / 36525))) * (π / 180)) ≠ -1 →
      ∃ x, Planet.eph (p.udpla sv info) (t + d) = .ok (spread (some x)) := by
    intro d d0 d1 hc
    obtain ⟨-, -, -, h⟩ := C35_ellipse hsv hq info hp (t := t + d) (by linarith) (by linarith)
      (T := (t + d - 1 / 2) / 36525) (u := fun i => p.elements0 i + p.elementsDot i * ((t + d - 1 / 2) / 36525)) (by ring)
      (fun i => rfl) rfl
    obtain ⟨-, x, -, -, hx, -⟩ := h hc
    exact ⟨x, hx⟩
  by_cases c0 : cos ((p.elements0 3 + p.elementsDot 3 * ((t + 0 - 1 / 2) / 36525)
      - (p.elements0 4 + p.elementsDot 4 * ((t + 0 - 1 / 2) / 36525))) * (π / 180)) = -1
  · refine ⟨1, by norm_num, le_rfl, key 1 (by norm_num) le_rfl fun c1 => ?_⟩
    rw [cos_eq_neg_one_iff] at c0 c1
    obtain ⟨k, hk⟩ := c0
    obtain ⟨l, hl⟩ := c1
    obtain ⟨n, el, r, f, mu, hd, d1, d2, -⟩ := JplLp.ofName_ok hp
    have hrate : 0 < el.2 3 - el.2 4 ∧ el.2 3 - el.2 4 < 360 * 36525 := by
      refine JplLp.data_cases (P := fun d => 0 < d.1.2 3 - d.1.2 4 ∧ d.1.2 3 - d.1.2 4 < 360 * 36525)
        ?_ ?_ ?_ ?_ ?_ ?_ ?_ ?_ hd
      all_goals
        simp only [JplLp.mercury, JplLp.venus, JplLp.earthMoon, JplLp.mars, JplLp.jupiter, JplLp.saturn, JplLp.uranus,
          JplLp.neptune, Matrix.cons_val]
        norm_num
    rw [← d2] at hrate
    have hdiff : (l - k : ℝ) * 360 * 36525 = p.elementsDot 3 - p.elementsDot 4 := by
      have hpi := pi_pos.ne'
      have : ((l : ℝ) - k) * (2 * π) = (p.elementsDot 3 - p.elementsDot 4) / 36525 * (π / 180) := by linarith
      field_simp at this
      linarith
    have g1 : (0 : ℝ) < (l - k : ℤ) := by push_cast; nlinarith [hrate.1]
    have g2 : ((l - k : ℤ) : ℝ) < 1 := by push_cast; nlinarith [hrate.2]
    have g1' : (0 : ℤ) < l - k := by exact_mod_cast g1
    have g2' : l - k < (1 : ℤ) := by exact_mod_cast g2
    omega
  · exact ⟨0, le_rfl, by norm_num, key 0 le_rfl (by norm_num) c0⟩

/-! ## The geometry of the first leg -/

/-- The secular elements of a planet, src/udpla/jpl_lp.cpp:137-140, at a date in centuries. -/
noncomputable def secular (el : Arr6 × Arr6) (T : ℝ) : Arr6 := fun i => el.1 i + el.2 i * T

/-- The position with secular elements, in astronomical units. -/
noncomputable def secPos (u : Arr6) (E : ℝ) : V3 ℝ :=
  ellPos (u 0) (u 1) (u 2 * (π / 180)) (u 5 * (π / 180)) ((u 4 - u 5) * (π / 180)) E

theorem secEarth (T : ℝ) : let u := secular JplLp.earthMoon T
    u 0 = 1.00000261 + 0.00000562 * T ∧ u 1 = 0.01671123 + -0.00004392 * T ∧ u 2 = -0.00001531 + -0.01294668 * T ∧
    u 3 = 100.46457166 + 35999.37244981 * T ∧ u 4 = 102.93768193 + 0.32327364 * T ∧ u 5 = 0 := by
  simp [secular, JplLp.earthMoon]
  norm_num

theorem secVenus (T : ℝ) : let u := secular JplLp.venus T
    u 0 = 0.72333566 + 0.00000390 * T ∧ u 1 = 0.00677672 + -0.00004107 * T ∧ u 2 = 3.39467605 + -0.00078890 * T ∧
    u 3 = 181.97909950 + 58517.81538729 * T ∧ u 4 = 131.60246718 + 0.00268329 * T ∧
    u 5 = 76.67984255 + -0.27769418 * T := by
  simp [secular, JplLp.venus]

/-- The z component of the cross product, up to the inclinations. -/
theorem cross_flat {X Y U V al Om om c1 c2 : ℝ} (hX : |X| ≤ 1.01) (hY : |Y| ≤ 1.01) (hU : |U| ≤ 1.01) (hV : |V| ≤ 1.01)
    (h1 : c1 ≤ 1) (h1' : 0.998 ≤ c1) (h2 : c2 ≤ 1) (h2' : 0.998 ≤ c2) :
    |((X * cos al - Y * sin al) * (U * (sin Om * cos om + cos Om * sin om * c2) + V * (-sin Om * sin om + cos Om * cos om * c2))
      - c1 * (X * sin al + Y * cos al) * (U * (cos Om * cos om - sin Om * sin om * c2)
        + V * (-cos Om * sin om - sin Om * cos om * c2)))
      - (X * (U * sin (Om + om - al) + V * cos (Om + om - al)) - Y * (U * cos (Om + om - al) - V * sin (Om + om - al)))|
      ≤ 0.03 := by
  have key : ((X * cos al - Y * sin al) * (U * (sin Om * cos om + cos Om * sin om * c2) + V * (-sin Om * sin om + cos Om * cos om * c2))
      - c1 * (X * sin al + Y * cos al) * (U * (cos Om * cos om - sin Om * sin om * c2)
        + V * (-cos Om * sin om - sin Om * cos om * c2)))
      - (X * (U * sin (Om + om - al) + V * cos (Om + om - al)) - Y * (U * cos (Om + om - al) - V * sin (Om + om - al)))
      = (1 - c1) * ((X * sin al + Y * cos al) * (U * cos (Om + om) - V * sin (Om + om)))
        - (1 - c2) * ((U * sin om + V * cos om) * ((X * cos al - Y * sin al) * cos Om + c1 * (X * sin al + Y * cos al) * sin Om)) := by
    rw [sin_sub, cos_sub, sin_add, cos_add]
    ring
  rw [key]
  have two : ∀ a b x y : ℝ, |a| ≤ 1.01 → |b| ≤ 1.01 → |x| ≤ 1 → |y| ≤ 1 → |a * x + b * y| ≤ 2.02 := by
    intro a b x y ha hb hx hy
    have e1 : |a * x| ≤ 1.01 * 1 := by rw [abs_mul]; exact mul_le_mul ha hx (abs_nonneg _) (by norm_num)
    have e2 : |b * y| ≤ 1.01 * 1 := by rw [abs_mul]; exact mul_le_mul hb hy (abs_nonneg _) (by norm_num)
    calc |a * x + b * y| ≤ |a * x| + |b * y| := abs_add_le _ _
      _ ≤ 2.02 := by linarith
  have q1 := two X Y (sin al) (cos al) hX hY (abs_sin_le_one _) (abs_cos_le_one _)
  have q2 := two U V (cos (Om + om)) (-sin (Om + om)) hU hV (abs_cos_le_one _) (by rw [abs_neg]; exact abs_sin_le_one _)
  have q3 := two U V (sin om) (cos om) hU hV (abs_sin_le_one _) (abs_cos_le_one _)
  have q4 := two X Y (cos al) (-sin al) hX hY (abs_cos_le_one _) (by rw [abs_neg]; exact abs_sin_le_one _)
  rw [mul_neg, ← sub_eq_add_neg] at q2 q4
  have q5 : |(X * cos al - Y * sin al) * cos Om + c1 * (X * sin al + Y * cos al) * sin Om| ≤ 4.04 := by
    have e1 : |(X * cos al - Y * sin al) * cos Om| ≤ 2.02 * 1 := by
      rw [abs_mul]; exact mul_le_mul q4 (abs_cos_le_one _) (abs_nonneg _) (by norm_num)
    have e2 : |c1 * (X * sin al + Y * cos al) * sin Om| ≤ 1 * 2.02 * 1 := by
      rw [abs_mul, abs_mul]
      exact mul_le_mul (mul_le_mul (by rw [abs_of_nonneg (by linarith)]; exact h1) q1 (abs_nonneg _) (by norm_num))
        (abs_sin_le_one _) (abs_nonneg _) (by norm_num)
    calc _ ≤ |(X * cos al - Y * sin al) * cos Om| + |c1 * (X * sin al + Y * cos al) * sin Om| := abs_add_le _ _
      _ ≤ 4.04 := by linarith
  have f1 : |(1 - c1) * ((X * sin al + Y * cos al) * (U * cos (Om + om) - V * sin (Om + om)))| ≤ 0.002 * (2.02 * 2.02) := by
    rw [abs_mul, abs_mul]
    exact mul_le_mul (by rw [abs_of_nonneg (by linarith)]; linarith) (mul_le_mul q1 q2 (abs_nonneg _) (by norm_num))
      (by positivity) (by norm_num)
  have f2 : |(1 - c2) * ((U * sin om + V * cos om) * ((X * cos al - Y * sin al) * cos Om
      + c1 * (X * sin al + Y * cos al) * sin Om))| ≤ 0.002 * (2.02 * 4.04) := by
    rw [abs_mul, abs_mul]
    exact mul_le_mul (by rw [abs_of_nonneg (by linarith)]; linarith) (mul_le_mul q3 q5 (abs_nonneg _) (by norm_num))
      (by positivity) (by norm_num)
  calc _ ≤ _ := abs_sub _ _
    _ ≤ 0.002 * (2.02 * 2.02) + 0.002 * (2.02 * 4.04) := add_le_add f1 f2
    _ ≤ 0.03 := by norm_num

/-- The Earth, 60 degrees of eccentric anomaly after perihelion, 302 days before 2000. -/
theorem earth_at : ∃ T : ℝ, -0.0084 ≤ T ∧ T ≤ -0.0082 ∧
    let u := secular JplLp.earthMoon T
    π / 3 - u 1 * sin (π / 3) = (u 3 - u 4) * (π / 180) + 2 * π * (1 : ℤ) := by
  have hp1 := pi_gt_d4
  have hp2 := pi_lt_d4
  have hs1 : (1.73 : ℝ) < √3 := lt_sqrt_of_sq_lt (by norm_num)
  have hs2 : √3 < (1.74 : ℝ) := (sqrt_lt' (by norm_num)).2 (by norm_num)
  have hden : 0 < (35999.37244981 - 0.32327364) * (π / 180) + -0.00004392 * (√3 / 2) := by nlinarith
  refine ⟨(π / 3 - 0.01671123 * (√3 / 2) - (100.46457166 - 102.93768193) * (π / 180) - 2 * π)
    / ((35999.37244981 - 0.32327364) * (π / 180) + -0.00004392 * (√3 / 2)), ?_, ?_, ?_⟩
  · rw [le_div_iff₀ hden]; norm_num at hp1 hp2 hs1 hs2 ⊢; nlinarith
  · rw [div_le_iff₀ hden]; norm_num at hp1 hp2 hs1 hs2 ⊢; nlinarith
  · obtain ⟨-, e1, -, e3, e4, -⟩ := secEarth ((π / 3 - 0.01671123 * (√3 / 2) - (100.46457166 - 102.93768193) * (π / 180) - 2 * π)
      / ((35999.37244981 - 0.32327364) * (π / 180) + -0.00004392 * (√3 / 2)))
    dsimp only
    rw [e1, e3, e4, sin_pi_div_three]
    have := div_mul_cancel₀ (π / 3 - 0.01671123 * (√3 / 2) - (100.46457166 - 102.93768193) * (π / 180) - 2 * π) hden.ne'
    push_cast
    linear_combination -this

/-- The date at which Venus is at a given eccentric anomaly. -/
noncomputable def venusT (E : ℝ) : ℝ :=
  (E - 0.00677672 * sin E - (181.97909950 - 131.60246718) * (π / 180) - 2 * π)
    / ((58517.81538729 - 0.00268329) * (π / 180) + -0.00004107 * sin E)

theorem venusT_den (E : ℝ) : 0 < (58517.81538729 - 0.00268329) * (π / 180) + -0.00004107 * sin E := by
  have hp1 := pi_gt_d4
  nlinarith [sin_le_one E]

theorem venusT_continuous : Continuous venusT := by
  unfold venusT
  exact Continuous.div (by fun_prop) (by fun_prop) fun E => (venusT_den E).ne'

theorem venus_at (E : ℝ) : let u := secular JplLp.venus (venusT E)
    E - u 1 * sin E = (u 3 - u 4) * (π / 180) + 2 * π * (1 : ℤ) := by
  obtain ⟨-, e1, -, e3, e4, -⟩ := secVenus (venusT E)
  dsimp only
  rw [e1, e3, e4]
  have := div_mul_cancel₀ (E - 0.00677672 * sin E - (181.97909950 - 131.60246718) * (π / 180) - 2 * π) (venusT_den E).ne'
  rw [show (E - 0.00677672 * sin E - (181.97909950 - 131.60246718) * (π / 180) - 2 * π)
    / ((58517.81538729 - 0.00268329) * (π / 180) + -0.00004107 * sin E) = venusT E from rfl] at this
  push_cast
  linear_combination -this

theorem venusT_range {E : ℝ} (h1 : π ≤ E) (h2 : E ≤ 3 * π / 2) : -0.0041 ≤ venusT E ∧ venusT E ≤ -0.0023 := by
  have hp1 := pi_gt_d4
  have hp2 := pi_lt_d4
  have s1 := sin_le_one E
  have s2 := neg_one_le_sin E
  unfold venusT
  constructor
  · rw [le_div_iff₀ (venusT_den E)]; norm_num at hp1 hp2 ⊢; nlinarith
  · rw [div_le_iff₀ (venusT_den E)]; norm_num at hp1 hp2 ⊢; nlinarith

/-- The components of the position of the Earth: its node is at longitude zero. -/
theorem earth_comps {u : Arr6} (h5 : u 5 = 0) (E : ℝ) : let X := u 0 * (cos E - u 1)
    let Y := u 0 * √(1 - u 1 ^ 2) * sin E
    let al := u 4 * (π / 180)
    (secPos u E).x = X * cos al - Y * sin al ∧ (secPos u E).y = cos (u 2 * (π / 180)) * (X * sin al + Y * cos al) ∧
    (secPos u E).z = sin (u 2 * (π / 180)) * (X * sin al + Y * cos al) := by
  unfold secPos ellPos colP colQ
  rw [h5]
  simp
  refine ⟨?_, ?_, ?_⟩ <;> ring

theorem venus_comps (u : Arr6) (E : ℝ) : let X := u 0 * (cos E - u 1)
    let Y := u 0 * √(1 - u 1 ^ 2) * sin E
    let Om := u 5 * (π / 180)
    let om := (u 4 - u 5) * (π / 180)
    let c := cos (u 2 * (π / 180))
    (secPos u E).x = X * (cos Om * cos om - sin Om * sin om * c) + Y * (-cos Om * sin om - sin Om * cos om * c) ∧
    (secPos u E).y = X * (sin Om * cos om + cos Om * sin om * c) + Y * (-sin Om * sin om + cos Om * cos om * c) ∧
    (secPos u E).z = sin (u 2 * (π / 180)) * (X * sin om + Y * cos om) := by
  unfold secPos ellPos colP colQ
  simp
  ring

/-- What the secular elements of the Earth and of Venus are like on the dates in question. -/
theorem elements_near {T S : ℝ} (t1 : -0.0084 ≤ T) (t2 : T ≤ -0.0082) (s1 : -0.0041 ≤ S) (s2 : S ≤ -0.0023) :
    let u := secular JplLp.earthMoon T
    let v := secular JplLp.venus S
    (1 ≤ u 0 ∧ u 0 ≤ 1.001 ∧ 0.0167 ≤ u 1 ∧ u 1 ≤ 0.0168 ∧ |u 2 * (π / 180)| ≤ 0.0001 ∧ u 5 = 0) ∧
    (0.7233 ≤ v 0 ∧ v 0 ≤ 0.7234 ∧ 0.0067 ≤ v 1 ∧ v 1 ≤ 0.0068 ∧ 0.059 ≤ v 2 * (π / 180) ∧ v 2 * (π / 180) ≤ 0.06) ∧
    (0.95 ≤ (v 4 - v 5) * (π / 180) ∧ (v 4 - v 5) * (π / 180) ≤ 0.96) ∧
    0.49 ≤ v 5 * (π / 180) + (v 4 - v 5) * (π / 180) - u 4 * (π / 180) ∧
    v 5 * (π / 180) + (v 4 - v 5) * (π / 180) - u 4 * (π / 180) ≤ 0.51 := by
  have hp1 := pi_gt_d4
  have hp2 := pi_lt_d4
  obtain ⟨a0, a1, a2, -, a4, a5⟩ := secEarth T
  obtain ⟨b0, b1, b2, -, b4, b5⟩ := secVenus S
  dsimp only
  rw [a0, a1, a2, a4, a5, b0, b1, b2, b4, b5, _root_.abs_le]
  norm_num at *
  refine ⟨⟨?_, ?_, ?_, ?_, ?_, ?_⟩, ⟨?_, ?_, ?_, ?_, ?_, ?_⟩, ⟨?_, ?_⟩, ?_, ?_⟩ <;> nlinarith

/-- The cosine of a small inclination. -/
theorem cos_small {x : ℝ} (h : |x| ≤ 0.06) : 0.998 ≤ cos x := by
  have h1 := one_sub_sq_div_two_le_cos (x := x)
  have h2 : x ^ 2 ≤ 0.06 ^ 2 := by rw [← sq_abs]; exact pow_le_pow_left₀ (abs_nonneg _) h 2
  norm_num at *
  linarith

theorem trig_near {d : ℝ} (d1 : 0.49 ≤ d) (d2 : d ≤ 0.51) : 0.45 ≤ sin d ∧ sin d ≤ 0.51 ∧ 0.86 ≤ cos d ∧ cos d ≤ 1 := by
  refine ⟨?_, (sin_le (by linarith)).trans d2, ?_, cos_le_one d⟩
  · have := sin_gt_sub_cube (x := d) (by linarith)
    have h3 : d ^ 3 ≤ 0.51 ^ 3 := pow_le_pow_left₀ (by linarith) d2 3
    norm_num at *
    linarith
  · have := one_sub_sq_div_two_le_cos (x := d)
    have h2 : d ^ 2 ≤ 0.51 ^ 2 := pow_le_pow_left₀ (by linarith) d2 2
    norm_num at *
    linarith

theorem sign_start {X Y a e b s c G : ℝ} (X1 : 0.48 ≤ X) (X2 : X ≤ 0.49) (Y1 : 0.85 ≤ Y) (k1 : 0.7233 ≤ a)
    (k3 : 0.0067 ≤ e) (r1 : 0.45 ≤ s) (r2 : s ≤ 0.51) (r3 : 0.86 ≤ c)
    (h : |G - (X * (a * (-1 - e) * s + b * 0 * c) - Y * (a * (-1 - e) * c - b * 0 * s))| ≤ 0.03) : 0 < G := by
  have h1 := (_root_.abs_le.1 h).1
  have m1 : X * s ≤ 0.49 * 0.51 := mul_le_mul X2 r2 (by linarith) (by norm_num)
  have m2 : 0.85 * 0.86 ≤ Y * c := mul_le_mul Y1 r3 (by norm_num) (by linarith)
  have m3 : 0.7233 * 1 ≤ a * (1 + e) := mul_le_mul k1 (by linarith) (by norm_num) (by linarith)
  have m4 : 0.7233 * 1 * 0.4 ≤ a * (1 + e) * (Y * c - X * s) :=
    mul_le_mul m3 (by norm_num at *; linarith) (by norm_num) (by linarith)
  have m5 : X * (a * (-1 - e) * s + b * 0 * c) - Y * (a * (-1 - e) * c - b * 0 * s) = a * (1 + e) * (Y * c - X * s) := by ring
  rw [m5] at h1
  norm_num at *
  linarith

theorem sign_end {X Y a e b s c G : ℝ} (X1 : 0.48 ≤ X) (Y1 : 0.85 ≤ Y) (Y2 : Y ≤ 0.88) (k1 : 0.7233 ≤ a)
    (k2 : a ≤ 0.7234) (k3 : 0.0067 ≤ e) (k4 : e ≤ 0.0068) (k5 : 0.72 ≤ b) (r1 : 0.45 ≤ s) (r3 : 0.86 ≤ c) (r4 : c ≤ 1)
    (h : |G - (X * (a * (0 - e) * s + b * -1 * c) - Y * (a * (0 - e) * c - b * -1 * s))| ≤ 0.03) : G < 0 := by
  have h1 := (_root_.abs_le.1 h).2
  have m1 : 0 ≤ X * s := mul_nonneg (by linarith) (by linarith)
  have m2 : Y * c ≤ 0.88 * 1 := mul_le_mul Y2 r4 (by linarith) (by norm_num)
  have m3 : a * e ≤ 0.7234 * 0.0068 := mul_le_mul k2 k4 (by linarith) (by norm_num)
  have m3' : 0 ≤ a * e := mul_nonneg (by linarith) (by linarith)
  have m4 : 0.48 * 0.86 ≤ X * c := mul_le_mul X1 r3 (by norm_num) (by linarith)
  have m5 : 0 ≤ Y * s := mul_nonneg (by linarith) (by linarith)
  have m6 : 0.72 * 0.41 ≤ b * (X * c + Y * s) :=
    mul_le_mul k5 (by norm_num at *; linarith) (by norm_num) (by linarith)
  have m7 : a * e * (Y * c - X * s) ≤ a * e * 0.88 := mul_le_mul_of_nonneg_left (by linarith) m3'
  have m8 : X * (a * (0 - e) * s + b * -1 * c) - Y * (a * (0 - e) * c - b * -1 * s)
    = a * e * (Y * c - X * s) - b * (X * c + Y * s) := by ring
  rw [m8] at h1
  norm_num at *
  linarith

/-- Positions one of which is in the ecliptic, the other far from it, are not parallel. -/
theorem not_parallel {p q : V3 ℝ} {X Y c s k : ℝ} (X1 : 0.48 ≤ X) (Y1 : 0.85 ≤ Y) (hcs : s ^ 2 + c ^ 2 = 1) (k1 : 0.998 ≤ k)
    (hx : p.x = X * c - Y * s) (hy : p.y = k * (X * s + Y * c)) (hz : |p.z| ≤ 0.0002) (qx : |q.x| ≤ 3) (qy : |q.y| ≤ 3)
    (qz : q.z ≤ -0.018) : cross p q ≠ 0 := by
  intro h0
  have small : ∀ a b : ℝ, |b| ≤ 3 → a * q.z = p.z * b → |a| ≤ 0.04 := by
    intro a b hb hab
    have h1 := congrArg abs hab
    rw [abs_mul, abs_mul, abs_of_nonpos (by linarith : q.z ≤ 0)] at h1
    have h2 : |p.z| * |b| ≤ 0.0002 * 3 := mul_le_mul hz hb (abs_nonneg _) (by norm_num)
    have h3 : |a| * 0.018 ≤ |a| * -q.z := mul_le_mul_of_nonneg_left (by linarith) (abs_nonneg _)
    norm_num at *
    linarith
  have hcx := congrArg V3.x h0
  have hcy := congrArg V3.y h0
  simp only [cross, V3.zero_x, V3.zero_y] at hcx hcy
  have hyE := small _ _ qy (by linarith : p.y * q.z = p.z * q.y)
  have hxE := small _ _ qx (by linarith : p.x * q.z = p.z * q.x)
  rw [hx, _root_.abs_le] at hxE
  rw [hy, _root_.abs_le] at hyE
  have hsq : (X * c - Y * s) ^ 2 + (X * s + Y * c) ^ 2 = X ^ 2 + Y ^ 2 := by
    linear_combination (X ^ 2 + Y ^ 2) * hcs
  clear hx hy hcx hcy small h0
  generalize X * c - Y * s = x at *
  generalize X * s + Y * c = y at *
  have hy1 : y ≤ 0.05 := by nlinarith [hyE.2]
  have hy2 : -0.05 ≤ y := by nlinarith [hyE.1]
  nlinarith [hxE.1, hxE.2]

theorem comps_le {U V c1 s1 c2 s2 c : ℝ} (hU : |U| ≤ 0.74) (hV : |V| ≤ 0.74) (h1 : |c1| ≤ 1) (h2 : |s1| ≤ 1) (h3 : |c2| ≤ 1)
    (h4 : |s2| ≤ 1) (h5 : |c| ≤ 1) : |U * (c1 * c2 - s1 * s2 * c) + V * (-c1 * s2 - s1 * c2 * c)| ≤ 3 ∧
      |U * (s1 * c2 + c1 * s2 * c) + V * (-s1 * s2 + c1 * c2 * c)| ≤ 3 := by
  have one : ∀ x y : ℝ, |x| ≤ 1 → |y| ≤ 1 → |x * y| ≤ 1 := fun x y hx hy => by
    rw [abs_mul]; exact mul_le_one₀ hx (abs_nonneg _) hy
  have four : ∀ p q r s : ℝ, |p| ≤ 1 → |q| ≤ 1 → |r| ≤ 1 → |s| ≤ 1 → |U * (p + q) + V * (r + s)| ≤ 3 := by
    intro p q r s hp hq hr hs
    have m1 : |U * (p + q)| ≤ 0.74 * 2 := by
      rw [abs_mul]
      exact mul_le_mul hU ((abs_add_le _ _).trans (by linarith)) (abs_nonneg _) (by norm_num)
    have m2 : |V * (r + s)| ≤ 0.74 * 2 := by
      rw [abs_mul]
      exact mul_le_mul hV ((abs_add_le _ _).trans (by linarith)) (abs_nonneg _) (by norm_num)
    exact (abs_add_le _ _).trans (by norm_num at *; linarith)
  have n1 : |-c1| ≤ 1 := by rwa [abs_neg]
  have n2 : |-s1| ≤ 1 := by rwa [abs_neg]
  constructor
  · rw [sub_eq_add_neg, ← neg_mul, ← neg_mul, sub_eq_add_neg, ← neg_mul, ← neg_mul]
    exact four _ _ _ _ (one _ _ h1 h3) (one _ _ (one _ _ n2 h4) h5) (one _ _ n1 h4) (one _ _ (one _ _ n2 h3) h5)
  · exact four _ _ _ _ (one _ _ h2 h3) (one _ _ (one _ _ h1 h4) h5) (one _ _ n2 h4) (one _ _ (one _ _ h1 h3) h5)

/-- Venus between its aphelion and a quarter of a turn later is far from the ecliptic. -/
theorem venus_low {a e b i w E : ℝ} (b0 : 0.7233 ≤ a) (b1 : 0.0067 ≤ e) (k1 : 0.72 ≤ b)
    (b2 : 0.059 ≤ i) (b2' : i ≤ 0.06) (o1 : 0.95 ≤ w) (o2 : w ≤ 0.96) (e1 : π ≤ E) (e2 : E ≤ 3 * π / 2) :
    sin i * (a * (cos E - e) * sin w + b * sin E * cos w) ≤ -0.018 := by
  have hpi := pi_pos
  have hcos : cos E ≤ 0 := cos_nonpos_of_pi_div_two_le_of_le (by linarith) (by linarith)
  have hsin : sin E ≤ 0 := by
    rw [show E = (E - π) + π by ring, sin_add_pi]
    have := sin_nonneg_of_nonneg_of_le_pi (x := E - π) (by linarith) (by linarith)
    linarith
  have hcs : cos E + sin E ≤ -1 := by nlinarith [sin_sq_add_cos_sq E]
  have w1 : 0.7 ≤ sin w := by
    have := sin_gt_sub_cube (x := w) (by linarith)
    have h3 : w ^ 3 ≤ 0.96 ^ 3 := pow_le_pow_left₀ (by linarith) o2 3
    norm_num at *
    linarith
  have w2 : 0.5 ≤ cos w := by
    have := one_sub_sq_div_two_le_cos (x := w)
    have h2 : w ^ 2 ≤ 0.96 ^ 2 := pow_le_pow_left₀ (by linarith) o2 2
    norm_num at *
    linarith
  have w3 : 0.05 ≤ sin i := by
    have := sin_gt_sub_cube (x := i) (by linarith)
    have h3 : i ^ 3 ≤ 0.06 ^ 3 := pow_le_pow_left₀ (by linarith) b2' 3
    norm_num at *
    linarith
  have p1 : 0.36 * -cos E ≤ a * (-cos E + e) * sin w := by
    have m1 : 0.7233 * -cos E ≤ a * (-cos E + e) := mul_le_mul b0 (by linarith) (by linarith) (by linarith)
    have m2 : 0.7233 * -cos E * 0.7 ≤ a * (-cos E + e) * sin w :=
      mul_le_mul m1 w1 (by norm_num) (mul_nonneg (by linarith) (by linarith))
    norm_num at *
    nlinarith
  have p2 : 0.36 * -sin E ≤ b * -sin E * cos w := by
    have m1 : 0.72 * -sin E ≤ b * -sin E := mul_le_mul_of_nonneg_right k1 (by linarith)
    have m2 : 0.72 * -sin E * 0.5 ≤ b * -sin E * cos w :=
      mul_le_mul m1 w2 (by norm_num) (mul_nonneg (by linarith) (by linarith))
    norm_num at *
    linarith
  have p3 : 0.05 * 0.36 ≤ sin i * (a * (-cos E + e) * sin w + b * -sin E * cos w) :=
    mul_le_mul w3 (by norm_num at *; linarith) (by norm_num) (by linarith)
  norm_num at *
  linarith

theorem venus_size {a e : ℝ} (b0 : 0.7233 ≤ a) (b0' : a ≤ 0.7234) (b1 : 0.0067 ≤ e) (b1' : e ≤ 0.0068) (E : ℝ) :
    0.72 ≤ a * √(1 - e ^ 2) ∧ a * √(1 - e ^ 2) ≤ 0.7234 ∧ |a * (cos E - e)| ≤ 0.74 ∧ |a * √(1 - e ^ 2) * sin E| ≤ 0.74 := by
  have br : √(1 - e ^ 2) ≤ 1 := sqrt_le_one.2 (by nlinarith)
  have br' : 0.999 ≤ √(1 - e ^ 2) := le_sqrt_of_sq_le (by nlinarith)
  have k1 : 0.7233 * 0.999 ≤ a * √(1 - e ^ 2) := mul_le_mul b0 br' (by norm_num) (by linarith)
  have k2 : a * √(1 - e ^ 2) ≤ 0.7234 * 1 := mul_le_mul b0' br (sqrt_nonneg _) (by norm_num)
  refine ⟨by norm_num at *; linarith, by norm_num at *; linarith, ?_, ?_⟩
  · rw [abs_mul, abs_of_nonneg (by linarith : 0 ≤ a)]
    have : |cos E - e| ≤ 1.0068 := by
      rw [_root_.abs_le]; constructor <;> linarith [cos_le_one E, neg_one_le_cos E]
    calc a * |cos E - e| ≤ 0.7234 * 1.0068 := mul_le_mul b0' this (abs_nonneg _) (by norm_num)
      _ ≤ 0.74 := by norm_num
  · rw [abs_mul, abs_of_nonneg (by linarith : 0 ≤ a * √(1 - e ^ 2))]
    calc _ ≤ 0.7234 * 1 * 1 := mul_le_mul k2 (abs_sin_le_one E) (abs_nonneg _) (by norm_num)
      _ ≤ 0.74 := by norm_num

theorem earth_size {a e : ℝ} (a0 : 1 ≤ a) (a0' : a ≤ 1.001) (a1 : 0.0167 ≤ e) (a1' : e ≤ 0.0168) :
    (0.48 ≤ a * (1 / 2 - e) ∧ a * (1 / 2 - e) ≤ 0.49) ∧ 0.85 ≤ a * √(1 - e ^ 2) * (√3 / 2) ∧ a * √(1 - e ^ 2) * (√3 / 2) ≤ 0.88 := by
  have hs1 : (1.73 : ℝ) < √3 := lt_sqrt_of_sq_lt (by norm_num)
  have hs2 : √3 < (1.74 : ℝ) := (sqrt_lt' (by norm_num)).2 (by norm_num)
  have ar : √(1 - e ^ 2) ≤ 1 := sqrt_le_one.2 (by nlinarith)
  have ar' : 0.99 ≤ √(1 - e ^ 2) := le_sqrt_of_sq_le (by nlinarith)
  have k1 : 1 * 0.99 ≤ a * √(1 - e ^ 2) := mul_le_mul a0 ar' (by norm_num) (by linarith)
  have k2 : a * √(1 - e ^ 2) ≤ 1.001 * 1 := mul_le_mul a0' ar (sqrt_nonneg _) (by norm_num)
  have k3 : 1 * 0.99 * 0.865 ≤ a * √(1 - e ^ 2) * (√3 / 2) := mul_le_mul k1 (by norm_num at *; linarith) (by norm_num) (by linarith)
  have k4 : a * √(1 - e ^ 2) * (√3 / 2) ≤ 1.001 * 1 * 0.87 :=
    mul_le_mul k2 (by norm_num at *; linarith) (by positivity) (by norm_num)
  have k5 : 1 * 0.4832 ≤ a * (1 / 2 - e) := mul_le_mul a0 (by norm_num at *; linarith) (by norm_num) (by linarith)
  have k6 : a * (1 / 2 - e) ≤ 1.001 * 0.4833 := mul_le_mul a0' (by norm_num at *; linarith) (by linarith) (by norm_num)
  norm_num at *
  exact ⟨⟨by linarith, by linarith⟩, by linarith, by linarith⟩

/-- A launch from the Earth and an arrival at Venus the plane of which contains the pole of the ecliptic. -/
theorem polar_first_leg : ∃ T S D E : ℝ, -0.0084 ≤ T ∧ T ≤ -0.0082 ∧ -0.0041 ≤ S ∧ S ≤ -0.0023 ∧
    (let u := secular JplLp.earthMoon T
     let v := secular JplLp.venus S
     (D - u 1 * sin D = (u 3 - u 4) * (π / 180) + 2 * π * (1 : ℤ) ∧ cos D ≠ -1) ∧
     (E - v 1 * sin E = (v 3 - v 4) * (π / 180) + 2 * π * (1 : ℤ) ∧ cos E ≠ -1) ∧
     cross (secPos u D) (secPos v E) ≠ 0 ∧ (cross (secPos u D) (secPos v E)).z = 0) := by
  obtain ⟨T, t1, t2, hT⟩ := earth_at
  set u := secular JplLp.earthMoon T with hu
  have hpi := pi_pos
  obtain ⟨g, hg⟩ : ∃ g : ℝ → ℝ, g = fun E => (cross (secPos u (π / 3)) (secPos (secular JplLp.venus (venusT E)) E)).z := ⟨_, rfl⟩
  have hcont : Continuous g := by
    have h : ∀ i, Continuous fun E => secular JplLp.venus (venusT E) i := fun i => by
      unfold secular
      exact continuous_const.add (continuous_const.mul venusT_continuous)
    have h0 := h 0
    have h1 := h 1
    have h2 := h 2
    have h4 := h 4
    have h5 := h 5
    rw [hg]
    simp only [cross, (venus_comps _ _).1, (venus_comps _ _).2.1]
    fun_prop
  -- the data of the two orbits
  have hel : ∀ E, π ≤ E → E ≤ 3 * π / 2 → _ := fun E e1 e2 =>
    elements_near t1 t2 (venusT_range e1 e2).1 (venusT_range e1 e2).2
  have hE0 := (hel π le_rfl (by linarith)).1
  rw [← hu] at hE0
  obtain ⟨a0, a0', a1, a1', a2, a5⟩ := hE0
  obtain ⟨cx, cy, cz⟩ := earth_comps a5 (π / 3)
  obtain ⟨X, hX⟩ : ∃ X, X = u 0 * (cos (π / 3) - u 1) := ⟨_, rfl⟩
  obtain ⟨Y, hY⟩ : ∃ Y, Y = u 0 * √(1 - u 1 ^ 2) * sin (π / 3) := ⟨_, rfl⟩
  rw [← hX, ← hY] at cx cy cz
  rw [cos_pi_div_three] at hX
  rw [sin_pi_div_three] at hY
  obtain ⟨⟨X1, X2⟩, Y1, Y2⟩ := earth_size a0 a0' a1 a1'
  rw [← hX] at X1 X2
  rw [← hY] at Y1 Y2
  have hc1 := cos_small (a2.trans (by norm_num))
  -- the same for Venus
  have hflat : ∀ E, π ≤ E → E ≤ 3 * π / 2 → ∃ U V d : ℝ,
      (∃ a e, 0.7233 ≤ a ∧ a ≤ 0.7234 ∧ 0.0067 ≤ e ∧ e ≤ 0.0068 ∧ U = a * (cos E - e) ∧
        ∃ b, 0.72 ≤ b ∧ b ≤ 0.7234 ∧ V = b * sin E) ∧ 0.49 ≤ d ∧ d ≤ 0.51 ∧
      |g E - (X * (U * sin d + V * cos d) - Y * (U * cos d - V * sin d))| ≤ 0.03 := by
    intro E e1 e2
    obtain ⟨-, ⟨b0, b0', b1, b1', b2, b2'⟩, -, d1, d2⟩ := hel E e1 e2
    rw [← hu] at d1 d2
    obtain ⟨vx, vy, -⟩ := venus_comps (secular JplLp.venus (venusT E)) E
    set v := secular JplLp.venus (venusT E)
    obtain ⟨k1, k2, hU, hV⟩ := venus_size b0 b0' b1 b1' E
    refine ⟨_, _, _, ⟨v 0, v 1, b0, b0', b1, b1', rfl, v 0 * √(1 - v 1 ^ 2), k1, k2, rfl⟩, d1, d2, ?_⟩
    have hfl := cross_flat (X := X) (Y := Y) (al := u 4 * (π / 180)) (Om := v 5 * (π / 180)) (om := (v 4 - v 5) * (π / 180))
      (by rw [_root_.abs_le]; constructor <;> linarith) (by rw [_root_.abs_le]; constructor <;> linarith)
      (hU.trans (by norm_num)) (hV.trans (by norm_num))
      (cos_le_one (u 2 * (π / 180))) hc1 (cos_le_one (v 2 * (π / 180)))
      (cos_small (by rw [_root_.abs_le]; constructor <;> linarith))
    have hgE : g E = (secPos u (π / 3)).x * (secPos v E).y - (secPos u (π / 3)).y * (secPos v E).x := by
      rw [hg]; rfl
    rw [hgE, cx, cy, vx, vy]
    exact hfl
  have hpos : 0 < g π := by
    obtain ⟨U, V, d, ⟨a, e, k1, k2, k3, k4, rfl, b, -, -, rfl⟩, d1, d2, hd⟩ := hflat π le_rfl (by linarith)
    obtain ⟨r1, r2, r3, r4⟩ := trig_near d1 d2
    rw [cos_pi, sin_pi] at hd
    exact sign_start X1 X2 Y1 k1 k3 r1 r2 r3 hd
  have hneg : g (3 * π / 2) < 0 := by
    obtain ⟨U, V, d, ⟨a, e, k1, k2, k3, k4, rfl, b, k5, k6, rfl⟩, d1, d2, hd⟩ := hflat (3 * π / 2) (by linarith) le_rfl
    obtain ⟨r1, r2, r3, r4⟩ := trig_near d1 d2
    have c0 : cos (3 * π / 2) = 0 := by
      rw [show 3 * π / 2 = π / 2 + π by ring, cos_add_pi, cos_pi_div_two, neg_zero]
    have s0 : sin (3 * π / 2) = -1 := by
      rw [show 3 * π / 2 = π / 2 + π by ring, sin_add_pi, sin_pi_div_two]
    rw [c0, s0] at hd
    exact sign_end X1 Y1 Y2 k1 k2 k3 k4 k5 r1 r3 r4 hd
  obtain ⟨E, ⟨e1, e2⟩, hE⟩ := intermediate_value_Icc' (f := g) (by linarith : π ≤ 3 * π / 2) hcont.continuousOn
    (show (0 : ℝ) ∈ Set.Icc (g (3 * π / 2)) (g π) from ⟨hneg.le, hpos.le⟩)
  have hEpi : E ≠ π := by rintro rfl; linarith
  have e1' : π < E := lt_of_le_of_ne e1 (Ne.symm hEpi)
  obtain ⟨r1, r2⟩ := venusT_range e1 e2
  obtain ⟨-, ⟨b0, b0', b1, b1', b2, b2'⟩, ⟨o1, o2⟩, -⟩ := hel E e1 e2
  have hcE : cos E ≠ -1 := by
    intro h
    have h1 : cos (E - π) = 1 := by rw [cos_sub_pi, h, neg_neg]
    have := (cos_eq_one_iff_of_lt_of_lt (by linarith) (by linarith)).1 h1
    linarith
  refine ⟨T, venusT E, π / 3, E, t1, t2, r1, r2, ⟨hT, by rw [cos_pi_div_three]; norm_num⟩, ⟨venus_at E, hcE⟩, ?_, ?_⟩
  · intro h0
    obtain ⟨vx, vy, vz⟩ := venus_comps (secular JplLp.venus (venusT E)) E
    set v := secular JplLp.venus (venusT E)
    obtain ⟨k1, k2, hU, hV⟩ := venus_size b0 b0' b1 b1' E
    obtain ⟨hvx, hvy⟩ := comps_le hU hV (abs_cos_le_one (v 5 * (π / 180))) (abs_sin_le_one (v 5 * (π / 180)))
      (abs_cos_le_one ((v 4 - v 5) * (π / 180))) (abs_sin_le_one ((v 4 - v 5) * (π / 180))) (abs_cos_le_one (v 2 * (π / 180)))
    rw [← vx] at hvx
    rw [← vy] at hvy
    have hvz := venus_low b0 b1 k1 b2 b2' o1 o2 e1 e2
    rw [← vz] at hvz
    have hyp : |X * sin (u 4 * (π / 180)) + Y * cos (u 4 * (π / 180))| ≤ 1.4 := by
      refine (abs_add_le _ _).trans ?_
      rw [abs_mul, abs_mul, abs_of_nonneg (by linarith : 0 ≤ X), abs_of_nonneg (by linarith : 0 ≤ Y)]
      calc _ ≤ 0.49 * 1 + 0.88 * 1 := add_le_add (mul_le_mul X2 (abs_sin_le_one _) (abs_nonneg _) (by norm_num))
            (mul_le_mul Y2 (abs_cos_le_one _) (abs_nonneg _) (by norm_num))
        _ ≤ 1.4 := by norm_num
    have hze : |(secPos u (π / 3)).z| ≤ 0.0002 := by
      rw [cz, abs_mul]
      have m1 : |sin (u 2 * (π / 180))| ≤ 0.0001 := abs_sin_le_abs.trans a2
      calc _ ≤ 0.0001 * 1.4 := mul_le_mul m1 hyp (abs_nonneg _) (by norm_num)
        _ ≤ _ := by norm_num
    exact not_parallel X1 Y1 (sin_sq_add_cos_sq _) hc1 cx cy hze hvx hvy hvz h0
  · rw [hg] at hE
    exact hE

end Kep3.Mga
