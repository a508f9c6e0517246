import Verif.Elements.Props92
import Verif.Kepler.Anomalies

/-!
# C93: how the state on an ellipse depends on the elements

The state as a function of the eccentric anomaly, and bounds for its change when the elements are changed.
-/

namespace Kep3
open Real V3 Fl

theorem prod_change {x x' y y' d k : ℝ} (hx : |x'| ≤ 1) (hy : |y| ≤ 1) (h : |x' - x| ≤ d) (g : |y' - y| ≤ k) : |x' * y' - x * y| ≤ d + k := by
  have d0 := (abs_nonneg _).trans h
  have k0 := (abs_nonneg _).trans g
  rw [show x' * y' - x * y = x' * (y' - y) + (x' - x) * y by ring]
  refine (abs_add_le _ _).trans ?_
  rw [abs_mul, abs_mul]
  nlinarith [abs_nonneg x', abs_nonneg y, abs_nonneg (x' - x), abs_nonneg (y' - y)]

theorem abs_mul_le_one {x y : ℝ} (hx : |x| ≤ 1) (hy : |y| ≤ 1) : |x * y| ≤ 1 := by
  rw [abs_mul]; exact mul_le_one₀ hx (abs_nonneg _) hy

/-- A vector in two nearby perifocal frames. -/
theorem frame_change {i Om om i' Om' om' X Y X' Y' d ρ δ : ℝ} (hX : |X' - X| ≤ d) (hY : |Y' - Y| ≤ d) (bX : |X| ≤ ρ) (bY : |Y| ≤ ρ) (h1 : |i' - i| ≤ δ)
    (h2 : |Om' - Om| ≤ δ) (h3 : |om' - om| ≤ δ) : norm (inFrame i' Om' om' X' Y' - inFrame i Om om X Y) ≤ 1.42 * d + 17.4 * δ * ρ := by
  have d0 := (abs_nonneg _).trans hX
  have ρ0 := (abs_nonneg _).trans bX
  have δ0 := (abs_nonneg _).trans h1
  have ci : |cos i' - cos i| ≤ δ := (Real.abs_cos_sub_cos_le _ _).trans h1
  have si : |sin i' - sin i| ≤ δ := (Real.abs_sin_sub_sin_le _ _).trans h1
  have co : |cos Om' - cos Om| ≤ δ := (Real.abs_cos_sub_cos_le _ _).trans h2
  have so : |sin Om' - sin Om| ≤ δ := (Real.abs_sin_sub_sin_le _ _).trans h2
  have cp : |cos om' - cos om| ≤ δ := (Real.abs_cos_sub_cos_le _ _).trans h3
  have sp : |sin om' - sin om| ≤ δ := (Real.abs_sin_sub_sin_le _ _).trans h3
  have C := abs_cos_le_one
  have S := abs_sin_le_one
  have p1 := prod_change (C Om') (C om) co cp
  have p2 := prod_change (abs_mul_le_one (S Om') (S om')) (C i) (prod_change (S Om') (S om) so sp) ci
  have p3 := prod_change (S Om') (C om) so cp
  have p4 := prod_change (abs_mul_le_one (C Om') (S om')) (C i) (prod_change (C Om') (S om) co sp) ci
  have p5 := prod_change (S om') (S i) sp si
  have q1 := prod_change (C Om') (S om) co sp
  have q2 := prod_change (abs_mul_le_one (S Om') (C om')) (C i) (prod_change (S Om') (C om) so cp) ci
  have q3 := prod_change (S Om') (S om) so sp
  have q4 := prod_change (abs_mul_le_one (C Om') (C om')) (C i) (prod_change (C Om') (C om) co cp) ci
  have q5 := prod_change (C om') (S i) cp si
  have comb : ∀ {a a' b b' : ℝ}, |a' - a| ≤ 5 * δ → |b' - b| ≤ 5 * δ → |(a' * X + b' * Y) - (a * X + b * Y)| ≤ 10 * δ * ρ := by
    intro a a' b b' ha hb
    rw [show (a' * X + b' * Y) - (a * X + b * Y) = (a' - a) * X + (b' - b) * Y by ring]
    refine (abs_add_le _ _).trans ?_
    rw [abs_mul, abs_mul]
    have e1 := mul_le_mul ha bX (abs_nonneg _) (by positivity)
    have e2 := mul_le_mul hb bY (abs_nonneg _) (by positivity)
    linarith
  have e : inFrame i' Om' om' X' Y' - inFrame i Om om X Y = inFrame i' Om' om' (X' - X) (Y' - Y) - (inFrame i Om om X Y - inFrame i' Om' om' X Y) := by
    unfold inFrame; ext <;> simp <;> ring
  have n1 : norm (inFrame i' Om' om' (X' - X) (Y' - Y)) ≤ 1.42 * d := by
    unfold inFrame
    rw [frame_norm, Real.sqrt_le_left (by positivity)]
    have := abs_mul_abs_self (X' - X)
    have := abs_mul_abs_self (Y' - Y)
    nlinarith [abs_nonneg (X' - X), abs_nonneg (Y' - Y)]
  have n2 : norm (inFrame i Om om X Y - inFrame i' Om' om' X Y) ≤ 1.74 * (10 * δ * ρ) := by
    have f1 : ∀ {a b a' b' : ℝ}, |a' - a| ≤ δ + δ → |b' - b| ≤ δ + δ + δ → |(a' - b') - (a - b)| ≤ 5 * δ := by
      intro a b a' b' ha hb
      rw [show (a' - b') - (a - b) = (a' - a) + -(b' - b) by ring]
      refine (abs_add_le _ _).trans ?_
      rw [abs_neg]; linarith
    have f2 : ∀ {a b a' b' : ℝ}, |a' - a| ≤ δ + δ → |b' - b| ≤ δ + δ + δ → |(a' + b') - (a + b)| ≤ 5 * δ := by
      intro a b a' b' ha hb
      rw [show (a' + b') - (a + b) = (a' - a) + (b' - b) by ring]
      refine (abs_add_le _ _).trans ?_
      linarith
    have q1' : |(-cos Om' * sin om') - (-cos Om * sin om)| ≤ δ + δ := by
      rw [show (-cos Om' * sin om') - (-cos Om * sin om) = -(cos Om' * sin om' - cos Om * sin om) by ring, abs_neg]; exact q1
    have q3' : |(-sin Om' * sin om') - (-sin Om * sin om)| ≤ δ + δ := by
      rw [show (-sin Om' * sin om') - (-sin Om * sin om) = -(sin Om' * sin om' - sin Om * sin om) by ring, abs_neg]; exact q3
    apply norm_le_of_comp (by positivity)
    · rw [show (inFrame i Om om X Y - inFrame i' Om' om' X Y).x = -((inFrame i' Om' om' X Y).x - (inFrame i Om om X Y).x) by simp, abs_neg]
      exact comb (f1 p1 p2) (f1 q1' q2)
    · rw [show (inFrame i Om om X Y - inFrame i' Om' om' X Y).y = -((inFrame i' Om' om' X Y).y - (inFrame i Om om X Y).y) by simp, abs_neg]
      exact comb (f2 p3 p4) (f2 q3' q4)
    · rw [show (inFrame i Om om X Y - inFrame i' Om' om' X Y).z = -((inFrame i' Om' om' X Y).z - (inFrame i Om om X Y).z) by simp, abs_neg]
      exact comb (p5.trans (by linarith)) (q5.trans (by linarith))
  rw [e]
  refine (norm_sub_le' _ _).trans ?_
  linarith

/-- A quotient of changed numbers. -/
theorem quot_change {n n' w w' d k q : ℝ} (hw : 3 / 4 ≤ w) (hw' : 3 / 4 ≤ w') (hn : |n' - n| ≤ d) (hd : |w' - w| ≤ k) (hq : |n / w| ≤ q) :
    |n' / w' - n / w| ≤ (d + q * k) / 0.75 := by
  have e : n' / w' - n / w = ((n' - n) - n / w * (w' - w)) / w' := by
    have : w ≠ 0 := by linarith
    have : w' ≠ 0 := by linarith
    field_simp; ring
  have d0 := (abs_nonneg _).trans hn
  have k0 := (abs_nonneg _).trans hd
  have q0 := (abs_nonneg _).trans hq
  have h1 : |(n' - n) - n / w * (w' - w)| ≤ d + q * k := by
    rw [sub_eq_add_neg]
    refine (abs_add_le _ _).trans ?_
    rw [abs_neg, abs_mul]
    exact add_le_add hn (mul_le_mul hq hd (abs_nonneg _) q0)
  rw [e, abs_div, abs_of_pos (show 0 < w' by linarith)]
  calc _ ≤ (d + q * k) / w' := div_le_div_of_nonneg_right h1 (by linarith)
    _ ≤ _ := div_le_div_of_nonneg_left (by positivity) (by norm_num) (by linarith)

/-- The state on an ellipse by its eccentric anomaly. -/
noncomputable def eccState (a e i Om om E mu : ℝ) : RV ℝ :=
  ⟨inFrame i Om om (a * (cos E - e)) (a * (√(1 - e ^ 2) * sin E)),
   inFrame i Om om (√(mu / a) * (-sin E / (1 - e * cos E))) (√(mu / a) * (√(1 - e ^ 2) * cos E / (1 - e * cos E)))⟩

theorem inFrame_norm (i Om om x y : ℝ) : norm (inFrame i Om om x y) = √(x * x + y * y) := frame_norm i Om om x y

/-- The length of the position. -/
theorem eccState_r {a e : ℝ} (ha : 0 < a) (he : 0 ≤ e) (he1 : e < 1) (i Om om E mu : ℝ) : norm (eccState a e i Om om E mu).r = a * (1 - e * cos E) := by
  have h : 0 < 1 - e * cos E := by nlinarith [cos_le_one E, neg_one_le_cos E]
  have hb : √(1 - e ^ 2) ^ 2 = 1 - e ^ 2 := sq_sqrt (by nlinarith)
  show norm (inFrame _ _ _ _ _) = _
  rw [inFrame_norm, Real.sqrt_eq_iff_mul_self_eq (add_nonneg (mul_self_nonneg _) (mul_self_nonneg _)) (mul_pos ha h).le]
  have := sin_sq_add_cos_sq E
  linear_combination a ^ 2 * sin E ^ 2 * hb + a ^ 2 * (1 - e ^ 2) * this

/-- The length of the velocity. -/
theorem eccState_v {a e mu : ℝ} (ha : 0 < a) (hmu : 0 < mu) (he : 0 ≤ e) (he1 : e ≤ 1 / 4) (i Om om E : ℝ) :
    0.77 * √(mu / a) ≤ norm (eccState a e i Om om E mu).v := by
  have h : 3 / 4 ≤ 1 - e * cos E := by nlinarith [cos_le_one E, neg_one_le_cos E]
  have hb : √(1 - e ^ 2) ^ 2 = 1 - e ^ 2 := sq_sqrt (by nlinarith)
  have m0 : 0 < √(mu / a) := sqrt_pos.2 (by positivity)
  show _ ≤ norm (inFrame _ _ _ _ _)
  rw [inFrame_norm]
  apply Real.le_sqrt_of_sq_le
  set m := √(mu / a)
  set w := 1 - e * cos E with hw
  have w0 : 0 < w := by linarith
  have cs := sin_sq_add_cos_sq E
  have e1 : m * (-sin E / w) * (m * (-sin E / w)) + m * (√(1 - e ^ 2) * cos E / w) * (m * (√(1 - e ^ 2) * cos E / w)) =
      m ^ 2 * ((sin E ^ 2 + √(1 - e ^ 2) ^ 2 * cos E ^ 2) / w ^ 2) := by field_simp
  rw [e1, hb, mul_pow, mul_comm]
  apply mul_le_mul_of_nonneg_left _ (sq_nonneg m)
  rw [le_div_iff₀ (by positivity)]
  have c1 := cos_le_one E
  have c2 := neg_one_le_cos E
  have f : sin E ^ 2 + (1 - e ^ 2) * cos E ^ 2 = w * (1 + e * cos E) := by rw [hw]; linear_combination cs
  rw [f]
  have : 0.6 * w ≤ 1 + e * cos E := by rw [hw]; nlinarith
  nlinarith

theorem beta_change {e e' η : ℝ} (he : 0 ≤ e) (he1 : e ≤ 1 / 4) (he' : 0 ≤ e') (he1' : e' ≤ 1 / 4) (h : |e' - e| ≤ η) : |√(1 - e' ^ 2) - √(1 - e ^ 2)| ≤ 0.3 * η := by
  have h1 : 0.96 ≤ √(1 - e ^ 2) := Real.le_sqrt_of_sq_le (by nlinarith)
  have h2 : 0.96 ≤ √(1 - e' ^ 2) := Real.le_sqrt_of_sq_le (by nlinarith)
  have s1 : √(1 - e ^ 2) ^ 2 = 1 - e ^ 2 := sq_sqrt (by nlinarith)
  have s2 : √(1 - e' ^ 2) ^ 2 = 1 - e' ^ 2 := sq_sqrt (by nlinarith)
  set b := √(1 - e ^ 2)
  set b' := √(1 - e' ^ 2)
  have : (b' - b) * (b' + b) = -((e' - e) * (e' + e)) := by linear_combination s2 - s1
  have h3 : |b' - b| * (b' + b) = |e' - e| * (e' + e) := by
    rw [← abs_of_pos (show 0 < b' + b by linarith), ← abs_mul, this, abs_neg, abs_mul, abs_of_nonneg (show 0 ≤ e' + e by linarith)]
  nlinarith [abs_nonneg (b' - b), abs_nonneg (e' - e)]

/-- **Perturbation of the state.** -/
theorem eccState_change {a e i Om om E mu a' e' i' Om' om' E' mu' ε η : ℝ} (ha : 0 < a) (hmu : 0 < mu) (he : 0 ≤ e) (he1 : e ≤ 1 / 4) (he' : 0 ≤ e') (he1' : e' ≤ 1 / 4)
    (hε : ε ≤ 1 / 1000) (hη : η ≤ 1 / 1000) (da : |a' - a| ≤ η * a) (de : |e' - e| ≤ η) (dm : |√(mu' / a') - √(mu / a)| ≤ η * √(mu / a))
    (di : |i' - i| ≤ η) (dO : |Om' - Om| ≤ η) (dom : |om' - om| ≤ η) (dc : |cos E' - cos E| ≤ ε) (ds : |sin E' - sin E| ≤ ε) :
    norm ((eccState a' e' i' Om' om' E' mu').r - (eccState a e i Om om E mu).r) ≤ (1.9 * ε + 36 * η) * norm (eccState a e i Om om E mu).r ∧
    norm ((eccState a' e' i' Om' om' E' mu').v - (eccState a e i Om om E mu).v) ≤ (3.4 * ε + 40 * η) * norm (eccState a e i Om om E mu).v := by
  have ε0 := (abs_nonneg _).trans dc
  have η0 := (abs_nonneg _).trans de
  have C := abs_cos_le_one
  have S := abs_sin_le_one
  have m0 : 0 < √(mu / a) := sqrt_pos.2 (by positivity)
  have hb := beta_change he he1 he' he1' de
  have b0 : 0 ≤ √(1 - e ^ 2) := sqrt_nonneg _
  have b1 : √(1 - e ^ 2) ≤ 1 := Real.sqrt_le_one.2 (by nlinarith)
  have b0' : 0 ≤ √(1 - e' ^ 2) := sqrt_nonneg _
  have b1' : √(1 - e' ^ 2) ≤ 1 := Real.sqrt_le_one.2 (by nlinarith)
  have hbs : |√(1 - e' ^ 2) * sin E' - √(1 - e ^ 2) * sin E| ≤ 0.3 * η + ε := prod_change (by rw [abs_of_nonneg b0']; exact b1') (S E) hb ds
  have hbc : |√(1 - e' ^ 2) * cos E' - √(1 - e ^ 2) * cos E| ≤ 0.3 * η + ε := prod_change (by rw [abs_of_nonneg b0']; exact b1') (C E) hb dc
  have lbs : |√(1 - e ^ 2) * sin E| ≤ 1 := abs_mul_le_one (by rw [abs_of_nonneg b0]; exact b1) (S E)
  have lbc : |√(1 - e ^ 2) * cos E| ≤ 1 := abs_mul_le_one (by rw [abs_of_nonneg b0]; exact b1) (C E)
  have w1 : 3 / 4 ≤ 1 - e * cos E := by nlinarith [cos_le_one E, neg_one_le_cos E]
  have w2 : 3 / 4 ≤ 1 - e' * cos E' := by nlinarith [cos_le_one E', neg_one_le_cos E']
  have dw : |(1 - e' * cos E') - (1 - e * cos E)| ≤ η + 0.25 * ε := by
    rw [show (1 - e' * cos E') - (1 - e * cos E) = -(e' * (cos E' - cos E) + (e' - e) * cos E) by ring, abs_neg]
    refine (abs_add_le _ _).trans ?_
    rw [abs_mul, abs_mul, abs_of_nonneg he']
    nlinarith [abs_nonneg (cos E' - cos E), abs_nonneg (e' - e), abs_nonneg (cos E), C E]
  have scale : ∀ {p p' x x' d M k N : ℝ}, 0 < p → |p' - p| ≤ η * p → |x' - x| ≤ d → |x| ≤ M → M + d ≤ N → N * η + d ≤ k → |p' * x' - p * x| ≤ k * p := by
    intro p p' x x' d M k N hp h1 h2 h3 h4 h5
    have e1 : p' * x' - p * x = (p' - p) * x' + p * (x' - x) := by ring
    have e2 : |x'| ≤ N := by have := abs_add_le (x' - x) x; rw [sub_add_cancel] at this; linarith
    rw [e1]
    refine (abs_add_le _ _).trans ?_
    rw [abs_mul, abs_mul, abs_of_pos hp]
    have f1 := mul_le_mul h1 e2 (abs_nonneg _) (by positivity)
    have f2 := mul_le_mul_of_nonneg_left h2 hp.le
    have f3 := mul_le_mul_of_nonneg_right h5 hp.le
    linarith
  constructor
  · have x1 : |(cos E' - e') - (cos E - e)| ≤ ε + η := by
      rw [show (cos E' - e') - (cos E - e) = (cos E' - cos E) + -(e' - e) by ring]
      refine (abs_add_le _ _).trans ?_
      rw [abs_neg]; linarith
    have x2 : |cos E - e| ≤ 1.25 := by
      refine (abs_sub _ _).trans ?_
      rw [abs_of_nonneg he]; linarith [C E]
    have X := scale ha da x1 x2 (N := 1.26) (by linarith) (k := ε + 2.26 * η) (by linarith)
    have Y := scale ha da hbs lbs (N := 1.26) (by linarith) (k := ε + 2.26 * η) (by linarith)
    have bX : |a * (cos E - e)| ≤ 1.25 * a := by rw [abs_mul, abs_of_pos ha, mul_comm]; exact mul_le_mul_of_nonneg_right x2 ha.le
    have bY : |a * (√(1 - e ^ 2) * sin E)| ≤ 1.25 * a := by rw [abs_mul, abs_of_pos ha, mul_comm]; exact mul_le_mul_of_nonneg_right (lbs.trans (by norm_num)) ha.le
    have F := frame_change X Y bX bY di dO dom
    have R := eccState_r ha he (by linarith) i Om om E mu
    have R' : 0.75 * a ≤ norm (eccState a e i Om om E mu).r := by
      rw [R, mul_comm]; exact mul_le_mul_of_nonneg_left (by linarith) ha.le
    refine (show norm _ ≤ _ from F).trans ?_
    have := mul_le_mul_of_nonneg_left R' (show 0 ≤ 1.9 * ε + 36 * η by positivity)
    have := mul_nonneg ε0 ha.le
    have := mul_nonneg η0 ha.le
    linarith
  · have q1 : |-sin E / (1 - e * cos E)| ≤ 1.334 := by
      rw [abs_div, abs_neg, abs_of_pos (show 0 < 1 - e * cos E by linarith), div_le_iff₀ (by linarith)]
      linarith [S E]
    have q2 : |√(1 - e ^ 2) * cos E / (1 - e * cos E)| ≤ 1.334 := by
      rw [abs_div, abs_of_pos (show 0 < 1 - e * cos E by linarith), div_le_iff₀ (by linarith)]
      linarith
    have ds' : |-sin E' - -sin E| ≤ ε := by rw [show -sin E' - -sin E = -(sin E' - sin E) by ring, abs_neg]; exact ds
    have x1 := quot_change w1 w2 ds' dw q1
    have y1 := quot_change w1 w2 hbc dw q2
    have x1' : |-sin E' / (1 - e' * cos E') - -sin E / (1 - e * cos E)| ≤ 1.78 * ε + 2.2 * η := x1.trans (by rw [div_le_iff₀ (by norm_num)]; linarith)
    have y1' : |√(1 - e' ^ 2) * cos E' / (1 - e' * cos E') - √(1 - e ^ 2) * cos E / (1 - e * cos E)| ≤ 1.78 * ε + 2.2 * η :=
      y1.trans (by rw [div_le_iff₀ (by norm_num)]; linarith)
    have X := scale m0 dm x1' q1 (N := 1.35) (by linarith) (k := 1.78 * ε + 3.55 * η) (by linarith)
    have Y := scale m0 dm y1' q2 (N := 1.35) (by linarith) (k := 1.78 * ε + 3.55 * η) (by linarith)
    have bX : |√(mu / a) * (-sin E / (1 - e * cos E))| ≤ 1.334 * √(mu / a) := by rw [abs_mul, abs_of_pos m0, mul_comm]; exact mul_le_mul_of_nonneg_right q1 m0.le
    have bY : |√(mu / a) * (√(1 - e ^ 2) * cos E / (1 - e * cos E))| ≤ 1.334 * √(mu / a) := by rw [abs_mul, abs_of_pos m0, mul_comm]; exact mul_le_mul_of_nonneg_right q2 m0.le
    have F := frame_change X Y bX bY di dO dom
    have V := eccState_v ha hmu he he1 i Om om E
    refine (show norm _ ≤ _ from F).trans ?_
    have := mul_le_mul_of_nonneg_left V (show 0 ≤ 3.4 * ε + 40 * η by positivity)
    have := mul_nonneg ε0 m0.le
    have := mul_nonneg η0 m0.le
    linarith

/-- The classical identities, for all eccentric anomalies. -/
theorem e2f_identities {E e f : ℝ} (h0 : 0 ≤ e) (h1 : e < 1) (hE : cos (E / 2) ≠ 0) (hf : e2f E e = some f) :
    cos f = (cos E - e) / (1 - e * cos E) ∧ sin f = √(1 - e ^ 2) * sin E / (1 - e * cos E) := by
  rw [e2f_run h0 h1 hE] at hf
  have hf := (Option.some.inj hf).symm
  have hpi := pi_pos
  set k := round (E / (2 * π)) with hk
  have b := abs_le.1 (abs_sub_round (E / (2 * π)))
  rw [← hk] at b
  set F := E - k * (2 * π) with hF
  have e1 : F = (E / (2 * π) - k) * (2 * π) := by rw [hF]; field_simp
  have hc : cos F = cos E := by rw [hF, cos_sub_int_mul_two_pi]
  have hs : sin F = sin E := by rw [hF, sin_sub_int_mul_two_pi]
  have ht : tan (F / 2) = tan (E / 2) := by
    rw [show F / 2 = E / 2 - k * π by rw [hF]; ring, Real.tan_sub_int_mul_pi]
  have hne : F ≠ π ∧ F ≠ -π := by
    have z : cos (F / 2) ≠ 0 := by
      intro h
      apply hE
      rw [show E / 2 = F / 2 + k * π by rw [hF]; ring, Real.cos_add_int_mul_pi, h, mul_zero]
    constructor
    · intro h; apply z; rw [h]; exact cos_pi_div_two
    · intro h; apply z; rw [h, neg_div, cos_neg]; exact cos_pi_div_two
  have l1 : -π ≤ F := by rw [e1]; nlinarith
  have l2 : F ≤ π := by rw [e1]; nlinarith
  have := ellipse_identities h0 h1 (lt_of_le_of_ne l1 (Ne.symm hne.2)) (lt_of_le_of_ne l2 hne.1) (f := f) (by rw [ht]; exact hf)
  rwa [hc, hs] at this

/-- `par2ic` on an ellipse, by the eccentric anomaly. -/
theorem par2ic_ell {a e i Om om f mu E : ℝ} (ha : 0 < a) (hmu : 0 < mu) (he : 0 ≤ e) (he1 : e < 1) (hc : cos f = (cos E - e) / (1 - e * cos E))
    (hs : sin f = √(1 - e ^ 2) * sin E / (1 - e * cos E)) : par2ic ⟨a, e, i, Om, om, f⟩ mu = .ok (some (eccState a e i Om om E mu)) := by
  have w0 : 0 < 1 - e * cos E := by nlinarith [cos_le_one E, neg_one_le_cos E]
  have b2 : 0 < 1 - e * e := by nlinarith
  have hW : 1 + e * cos f = (1 - e * e) / (1 - e * cos E) := by rw [hc]; field_simp; ring
  have hW0 : 0 < 1 + e * cos f := by rw [hW]; positivity
  have hP : 0 < a * (1 - e * e) := mul_pos ha b2
  rw [par2ic_frame hmu (mul_pos ha (by linarith)) hP hW0]
  have hb : √(1 - e ^ 2) ^ 2 = 1 - e ^ 2 := sq_sqrt (by nlinarith)
  have hb0 : 0 < √(1 - e ^ 2) := sqrt_pos.2 (by nlinarith)
  have hr : a * (1 - e * e) / (1 + e * cos f) = a * (1 - e * cos E) := by
    rw [hW]; have := b2.ne'; field_simp
    exact div_self (by nlinarith)
  have hm : mu / √(a * (1 - e * e) * mu) = √(mu / a) / √(1 - e ^ 2) := by
    rw [show a * (1 - e * e) * mu = (1 - e ^ 2) * ((mu / a) * a ^ 2) by field_simp, Real.sqrt_mul (by nlinarith), Real.sqrt_mul (by positivity), Real.sqrt_sq ha.le]
    have m0 : 0 < √(mu / a) := sqrt_pos.2 (by positivity)
    have m2 : √(mu / a) ^ 2 = mu / a := sq_sqrt (by positivity)
    rw [div_eq_div_iff (by positivity) hb0.ne']
    have : mu = √(mu / a) ^ 2 * a := by rw [m2]; field_simp
    conv_lhs => rw [this]
    ring
  have x1 : a * (1 - e * cos E) * cos f = a * (cos E - e) := by rw [hc]; field_simp
  have x2 : a * (1 - e * cos E) * sin f = a * (√(1 - e ^ 2) * sin E) := by rw [hs]; field_simp
  have x3 : -(√(mu / a) / √(1 - e ^ 2)) * sin f = √(mu / a) * (-sin E / (1 - e * cos E)) := by rw [hs]; field_simp
  have x4 : √(mu / a) / √(1 - e ^ 2) * (e + cos f) = √(mu / a) * (√(1 - e ^ 2) * cos E / (1 - e * cos E)) := by
    rw [show e + cos f = √(1 - e ^ 2) ^ 2 * cos E / (1 - e * cos E) by rw [hc, hb]; field_simp; ring]
    field_simp
  rw [hr, hm, x1, x2, x3, x4]
  rfl

/-- Changing the true anomaly only. -/
theorem par2ic_change {a e i Om om f f' mu ε : ℝ} (ha : 0 < a) (hmu : 0 < mu) (he : 0 ≤ e) (he1 : e ≤ 1 / 4) (hf : |f' - f| ≤ ε) :
    ∃ x y, par2ic ⟨a, e, i, Om, om, f⟩ mu = .ok (some x) ∧ par2ic ⟨a, e, i, Om, om, f'⟩ mu = .ok (some y) ∧
      norm (y.r - x.r) ≤ 3.3 * ε * norm x.r ∧ norm (y.v - x.v) ≤ 3.3 * ε * norm x.v := by
  have ε0 := (abs_nonneg _).trans hf
  have w1 : ∀ f, 3 / 4 ≤ 1 + e * cos f := fun f => by nlinarith [cos_le_one f, neg_one_le_cos f]
  have w2 : 1 + e * cos f ≤ 1.25 := by nlinarith [cos_le_one f, neg_one_le_cos f]
  have hP : 0 < a * (1 - e * e) := mul_pos ha (by nlinarith)
  have dc : |cos f' - cos f| ≤ ε := (Real.abs_cos_sub_cos_le _ _).trans hf
  have ds : |sin f' - sin f| ≤ ε := (Real.abs_sin_sub_sin_le _ _).trans hf
  have C := abs_cos_le_one
  have S := abs_sin_le_one
  refine ⟨_, _, par2ic_frame hmu (mul_pos ha (by linarith)) hP (by linarith [w1 f]), par2ic_frame hmu (mul_pos ha (by linarith)) hP (by linarith [w1 f']), ?_, ?_⟩
  · have dw : |(1 + e * cos f') - (1 + e * cos f)| ≤ 0.25 * ε := by
      rw [show (1 + e * cos f') - (1 + e * cos f) = e * (cos f' - cos f) by ring, abs_mul, abs_of_nonneg he]
      exact mul_le_mul (by linarith) dc (abs_nonneg _) (by norm_num)
    have q : ∀ {n : ℝ}, |n| ≤ 1 → |n / (1 + e * cos f)| ≤ 1.334 := fun {n} hn => by
      rw [abs_div, abs_of_pos (show 0 < 1 + e * cos f by linarith [w1 f]), div_le_iff₀ (by linarith [w1 f])]
      linarith [w1 f]
    have x1 := quot_change (w1 f) (w1 f') dc dw (q (C f))
    have y1 := quot_change (w1 f) (w1 f') ds dw (q (S f))
    have lift : ∀ {n n' : ℝ}, |n' / (1 + e * cos f') - n / (1 + e * cos f)| ≤ (ε + 1.334 * (0.25 * ε)) / 0.75 →
        |a * (1 - e * e) / (1 + e * cos f') * n' - a * (1 - e * e) / (1 + e * cos f) * n| ≤ 1.78 * ε * (a * (1 - e * e)) := by
      intro n n' h
      rw [show a * (1 - e * e) / (1 + e * cos f') * n' - a * (1 - e * e) / (1 + e * cos f) * n =
        a * (1 - e * e) * (n' / (1 + e * cos f') - n / (1 + e * cos f)) by ring, abs_mul, abs_of_pos hP, mul_comm]
      refine mul_le_mul_of_nonneg_right (h.trans ?_) hP.le
      rw [div_le_iff₀ (by norm_num)]; linarith
    show norm (inFrame _ _ _ _ _ - inFrame _ _ _ _ _) ≤ _ * norm (inFrame _ _ _ _ _)
    refine (frame_change (lift x1) (lift y1) (le_add_of_nonneg_right (abs_nonneg (a * (1 - e * e) / (1 + e * cos f) * sin f))) (le_add_of_nonneg_left (abs_nonneg _))
      (δ := 0) (by simp) (by simp) (by simp)).trans ?_
    have k0 : 0 < a * (1 - e * e) / (1 + e * cos f) := div_pos hP (by linarith [w1 f])
    have hk : a * (1 - e * e) ≤ 1.25 * (a * (1 - e * e) / (1 + e * cos f)) := by
      rw [← mul_div_assoc, le_div_iff₀ (by linarith [w1 f])]
      rw [mul_comm]
      exact mul_le_mul_of_nonneg_right w2 hP.le
    rw [inFrame_norm]
    generalize a * (1 - e * e) / (1 + e * cos f) = k at *
    have e1 : √(k * cos f * (k * cos f) + k * sin f * (k * sin f)) = k := by
      rw [show k * cos f * (k * cos f) + k * sin f * (k * sin f) = k ^ 2 * (sin f ^ 2 + cos f ^ 2) by ring, sin_sq_add_cos_sq, mul_one, sqrt_sq k0.le]
    rw [e1]
    have := mul_le_mul_of_nonneg_left hk ε0
    have := mul_nonneg ε0 k0.le
    rw [mul_zero, zero_mul, add_zero]
    linarith
  · have m0 : 0 < mu / √(a * (1 - e * e) * mu) := div_pos hmu (sqrt_pos.2 (by positivity))
    show norm (inFrame _ _ _ _ _ - inFrame _ _ _ _ _) ≤ _ * norm (inFrame _ _ _ _ _)
    generalize mu / √(a * (1 - e * e) * mu) = m at *
    have x1 : |-m * sin f' - -m * sin f| ≤ m * ε := by
      rw [← mul_sub, abs_mul, abs_neg, abs_of_pos m0]
      exact mul_le_mul_of_nonneg_left ds m0.le
    have y1 : |m * (e + cos f') - m * (e + cos f)| ≤ m * ε := by
      rw [← mul_sub, add_sub_add_left_eq_sub, abs_mul, abs_of_pos m0]
      exact mul_le_mul_of_nonneg_left dc m0.le
    refine (frame_change x1 y1 (le_add_of_nonneg_right (abs_nonneg (m * (e + cos f)))) (le_add_of_nonneg_left (abs_nonneg _))
      (δ := 0) (by simp) (by simp) (by simp)).trans ?_
    have e1 : 0.75 * m ≤ norm (inFrame i Om om (-m * sin f) (m * (e + cos f))) := by
      rw [inFrame_norm]
      apply Real.le_sqrt_of_sq_le
      have cs := sin_sq_add_cos_sq f
      rw [show -m * sin f * (-m * sin f) + m * (e + cos f) * (m * (e + cos f)) = m ^ 2 * ((sin f ^ 2 + cos f ^ 2) + 2 * e * cos f + e ^ 2) by ring, cs, mul_pow, mul_comm]
      apply mul_le_mul_of_nonneg_left _ (sq_nonneg m)
      nlinarith [neg_one_le_cos f]
    have := mul_le_mul_of_nonneg_left e1 ε0
    have := mul_nonneg ε0 m0.le
    rw [mul_zero, zero_mul, add_zero]
    linarith

/-- Two relative errors one after the other. -/
theorem vec_trans {a b c : V3 ℝ} {j k : ℝ} (hj : 0 ≤ j) (h : norm (a - b) ≤ j * norm b) (g : norm (b - c) ≤ k * norm c) : norm (a - c) ≤ (k + j * (1 + k)) * norm c := by
  have e1 : norm (a - c) ≤ norm (a - b) + norm (b - c) := by
    have h1 := norm_sub_le' (a - b) (c - b)
    have e : norm (c - b) = norm (b - c) := by
      unfold V3.norm V3.dot; congr 1; simp; ring
    rwa [e, show a - b - (c - b) = a - c by ext <;> simp] at h1
  have e2 : norm b ≤ norm (b - c) + norm c := by
    have h1 := norm_sub_le' (b - c) (0 - c)
    have e : norm (0 - c) = norm c := by
      unfold V3.norm V3.dot; congr 1; simp
    rwa [e, show b - c - (0 - c) = b by ext <;> simp] at h1
  have := mul_le_mul_of_nonneg_left (e2.trans (add_le_add_left g _)) hj
  linarith

end Kep3
