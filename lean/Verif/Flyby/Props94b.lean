import Verif.Flyby.Props94

/-!
# C94: the outgoing velocity of a fly-by in double precision: claims
-/

namespace Kep3
open Real V3 Fl

/-- **C94**: unless the incoming relative velocity is within about 10⁻¹² of the direction of the velocity of the planet, `fb_vout` in double precision answers with
numbers, and they are the exact outgoing velocity up to roundings of the velocities, amplified by the inverse of the sine of the angle between these two directions, and
of the turn angle, amplified when the fly-by turns the velocity by almost 180°. -/
theorem C94_vout {A : Libm} (hA : A.Double) {vi vp : V3 ℝ} {rp mu : ℝ} (hmu : 0 < mu) (hrp : 0 < rp) (hc : cross vi vp ≠ 0)
    (hs : 10 ^ 4 / 2 ^ 53 * (norm (vi - vp) * norm vp) ≤ norm (cross vi vp)) (beta : ℝ) :
    ∃ vo vo', fbVout vi vp rp beta mu = some vo ∧ fbVoutD A vi vp rp beta mu = some vo' ∧
      norm (vo' - vo) ≤ 1 / 2 ^ 53 * (6 * norm vp + norm (vi - vp) * (280 * (norm (vi - vp) * norm vp / norm (cross vi vp)) + 80 * √(1 + mu / (rp * norm (vi - vp) ^ 2)))) := by
  obtain ⟨i, j, hi, hj, hij, hn, h1, vo', δ, h2, h3, h4⟩ := fbVoutD_run hA hmu hrp hc (by unfold u; linarith) beta
  refine ⟨_, vo', h1, h2, ?_⟩
  have h5 := turn_change hi hj hij hn beta (2 * arcsin (1 / (1 + rp * norm (vi - vp) ^ 2 / mu))) δ
  have h6 := mul_le_mul_of_nonneg_left h3 hn.le
  generalize norm (vi - vp) • (cos δ • i + (cos beta * sin δ) • j + (sin beta * sin δ) • cross i j) = a at *
  generalize norm (vi - vp) • (cos (2 * arcsin (1 / (1 + rp * norm (vi - vp) ^ 2 / mu))) • i + (cos beta * sin (2 * arcsin (1 / (1 + rp * norm (vi - vp) ^ 2 / mu)))) • j
    + (sin beta * sin (2 * arcsin (1 / (1 + rp * norm (vi - vp) ^ 2 / mu)))) • cross i j) = b at *
  rw [show vo' - (vp + b) = (vo' - (vp + a)) + (a - b) by ext <;> simp <;> ring]
  refine (norm_add_le' _ _).trans ?_
  have hu : (1 : ℝ) / 2 ^ 53 = u := rfl
  rw [hu]
  linarith

/-- **C94**: the speed relative to the planet is kept up to roundings, whatever the turn angle. -/
theorem C94_speed {A : Libm} (hA : A.Double) {vi vp : V3 ℝ} {rp mu : ℝ} (hmu : 0 < mu) (hrp : 0 < rp) (hc : cross vi vp ≠ 0)
    (hs : 10 ^ 4 / 2 ^ 53 * (norm (vi - vp) * norm vp) ≤ norm (cross vi vp)) (beta : ℝ) :
    ∃ vo, fbVoutD A vi vp rp beta mu = some vo ∧
      |norm (vo - vp) - norm (vi - vp)| ≤ 1 / 2 ^ 53 * (6 * norm vp + 280 * norm (vi - vp) * (norm (vi - vp) * norm vp / norm (cross vi vp))) := by
  obtain ⟨i, j, hi, hj, hij, hn, h1, vo', δ, h2, h3, h4⟩ := fbVoutD_run hA hmu hrp hc (by unfold u; linarith) beta
  refine ⟨vo', h2, ?_⟩
  have e : norm (norm (vi - vp) • (cos δ • i + (cos beta * sin δ) • j + (sin beta * sin δ) • cross i j)) = norm (vi - vp) := by
    rw [norm_smul_pos' hn]
    have : norm (cos δ • i + (cos beta * sin δ) • j + (sin beta * sin δ) • cross i j) = 1 := by
      unfold V3.norm
      rw [frame_dot hi hj hij, sqrt_eq_one]
      have h1 := sin_sq_add_cos_sq δ
      have h2 := sin_sq_add_cos_sq beta
      linear_combination h1 + sin δ ^ 2 * h2
    rw [this, mul_one]
  generalize norm (vi - vp) • (cos δ • i + (cos beta * sin δ) • j + (sin beta * sin δ) • cross i j) = a at *
  have h5 := norm_rev (vo' - vp) a
  rw [e, show vo' - vp - a = vo' - (vp + a) by ext <;> simp <;> ring] at h5
  have hu : (1 : ℝ) / 2 ^ 53 = u := rfl
  rw [hu]
  linarith

/-! ## Velocities along that of the planet -/

/-- **C94**: when the planet is at rest, or all velocities are along an axis, the result is not a number. -/
theorem C94_nan {A : Libm} (hA : A.Double) (v : V3 ℝ) (a b rp beta mu : ℝ) :
    fbVoutD A v 0 rp beta mu = none ∧ fbVoutD A ⟨a, 0, 0⟩ ⟨b, 0, 0⟩ rp beta mu = none := by
  have key : ∀ vi vp : V3 ℝ, (∀ i, A.vdiv? (A.sub vi vp) (A.rd √(A.dot (A.sub vi vp) (A.sub vi vp))) = some i → A.cross i vp = 0) → fbVoutD A vi vp rp beta mu = none := by
    intro vi vp h
    unfold fbVoutD
    dsimp only
    simp only [Option.bind_eq_bind]
    rcases hd : turnD A.toArith rp mu (A.dot (A.sub vi vp) (A.sub vi vp)) with _ | δ
    · rfl
    rcases hi : A.vdiv? (A.sub vi vp) (A.rd √(A.dot (A.sub vi vp) (A.sub vi vp))) with _ | i
    · rfl
    have : normalizeD A.toArith (A.cross i vp) = none := by
      rw [h i hi]
      unfold normalizeD Arith.vdiv? Arith.dot
      rw [hA.arith.rd]
      simp [rn_zero]
    simp only [Option.bind_some]
    rw [this]
    rfl
  refine ⟨key _ _ fun i _ => ?_, key _ _ fun i hi => ?_⟩
  · unfold Arith.cross
    rw [hA.arith.rd]
    ext <;> simp [rn_zero]
  · unfold Arith.vdiv? at hi
    split_ifs at hi
    rw [← Option.some.inj hi]
    unfold Arith.cross Arith.sub
    rw [hA.arith.rd]
    ext <;> simp [rn_zero]

theorem rhe_even {m : Int} (hm : m % 2 = 0) : rhe ((m : ℝ) + 1 / 2) = m := by
  have hf : ⌊(m : ℝ) + 1 / 2⌋ = m := by
    rw [Int.floor_eq_iff]; constructor <;> linarith
  unfold rhe
  rw [hf, if_neg (by linarith), if_neg (by linarith), if_pos hm]

theorem lost_k1 : rn (2 / 43 : ℝ) = 6703032003528180 / 2 ^ 57 := by
  have := rn_eval (x := (2 / 43 : ℝ)) 6703032003528180 (-57) (by norm_num) (by norm_num) (by norm_num [abs_lt])
  rw [this]; norm_num
theorem lost_k2 : rn (9 / 43 : ℝ) = 7540911003969203 / 2 ^ 55 := by
  have := rn_eval (x := (9 / 43 : ℝ)) 7540911003969203 (-55) (by norm_num) (by norm_num) (by norm_num [abs_lt])
  rw [this]; norm_num
theorem lost_k3 : rn (42 / 43 : ℝ) = 8797729504630736 / 2 ^ 53 := by
  have := rn_eval (x := (42 / 43 : ℝ)) 8797729504630736 (-53) (by norm_num) (by norm_num) (by norm_num [abs_lt])
  rw [this]; norm_num
theorem lost_m1 : rn (7540911003969203 / 2 ^ 55 * 42 : ℝ) = 4948722846354789 / 2 ^ 49 := by
  have := rn_eval (x := (7540911003969203 / 2 ^ 55 * 42 : ℝ)) 4948722846354789 (-49) (by norm_num) (by norm_num) (by norm_num [abs_lt])
  rw [this]; norm_num
theorem lost_m2 : rn (8797729504630736 / 2 ^ 53 * 9 : ℝ) = 4948722846354789 / 2 ^ 49 := by
  have := rn_eval (x := (8797729504630736 / 2 ^ 53 * 9 : ℝ)) 4948722846354789 (-49) (by norm_num) (by norm_num) (by norm_num [abs_lt])
  rw [this]; norm_num
theorem lost_m3 : rn (8797729504630736 / 2 ^ 53 * 2 : ℝ) = 8797729504630736 / 2 ^ 52 := by
  have := rn_eval (x := (8797729504630736 / 2 ^ 53 * 2 : ℝ)) 8797729504630736 (-52) (by norm_num) (by norm_num) (by norm_num [abs_lt])
  rw [this]; norm_num
theorem lost_m4 : rn (6703032003528180 / 2 ^ 57 * 42 : ℝ) = 8797729504630736 / 2 ^ 52 := by
  have := rn_eval (x := (6703032003528180 / 2 ^ 57 * 42 : ℝ)) 8797729504630736 (-52) (by norm_num) (by norm_num) (by norm_num [abs_lt])
  rw [this]; norm_num
theorem lost_m5 : rn (6703032003528180 / 2 ^ 57 * 9 : ℝ) = 7540911003969202 / 2 ^ 54 := by
  have := rn_eval' (x := (6703032003528180 / 2 ^ 57 * 9 : ℝ)) 7540911003969202 (-54) (by norm_num) (by norm_num)
    (by rw [← rhe_even (m := 7540911003969202) (by norm_num)]; congr 1; norm_num)
  rw [this]; norm_num
theorem lost_m6 : rn (7540911003969203 / 2 ^ 55 * 2 : ℝ) = 7540911003969203 / 2 ^ 54 := by
  have := rn_eval (x := (7540911003969203 / 2 ^ 55 * 2 : ℝ)) 7540911003969203 (-54) (by norm_num) (by norm_num) (by norm_num [abs_lt])
  rw [this]; norm_num

/-- The computed axes for a velocity of the planet of (2, 9, 42) and an incoming velocity twice as large. -/
theorem lost_axes {A : Libm} (hA : A.Double) : A.sub ⟨4, 18, 84⟩ ⟨2, 9, 42⟩ = ⟨2, 9, 42⟩ ∧ A.dot ⟨2, 9, 42⟩ ⟨2, 9, 42⟩ = 1849 ∧ A.rd √1849 = 43 ∧
    A.vdiv? ⟨2, 9, 42⟩ 43 = some ⟨rn (2 / 43), rn (9 / 43), rn (42 / 43)⟩ ∧
    normalizeD A.toArith (A.cross ⟨rn (2 / 43), rn (9 / 43), rn (42 / 43)⟩ ⟨2, 9, 42⟩) = some ⟨0, 0, -1⟩ := by
  have hn : ∀ n : ℕ, n ≤ 2 ^ 53 → rn (n : ℝ) = n := fun n h => rn_nat h
  have s43 : √(1849 : ℝ) = 43 := by rw [show (1849 : ℝ) = 43 ^ 2 by norm_num, sqrt_sq (by norm_num)]
  refine ⟨?_, ?_, ?_, ?_, ?_⟩
  · unfold Arith.sub
    rw [hA.arith.rd]
    have h1 := hn 2 (by norm_num); have h2 := hn 9 (by norm_num); have h3 := hn 42 (by norm_num)
    push_cast at h1 h2 h3
    norm_num [h1, h2, h3]
  · unfold Arith.dot
    rw [hA.arith.rd]
    have h1 := hn 4 (by norm_num); have h2 := hn 81 (by norm_num); have h3 := hn 1764 (by norm_num); have h4 := hn 85 (by norm_num); have h5 := hn 1849 (by norm_num)
    push_cast at h1 h2 h3 h4 h5
    norm_num [h1, h2, h3, h4, h5]
  · rw [hA.arith.rd, s43]
    have h1 := hn 43 (by norm_num)
    push_cast at h1
    exact h1
  · unfold Arith.vdiv?
    rw [if_neg (by norm_num), hA.arith.rd]
  · have r54 : Rep (1 / 2 ^ 54 : ℝ) := ⟨1, -54, by norm_num, by norm_num⟩
    have r108 : Rep (1 / 2 ^ 54 * (1 / 2 ^ 54) : ℝ) := ⟨1, -108, by norm_num, by norm_num⟩
    have hcr : A.cross ⟨rn (2 / 43), rn (9 / 43), rn (42 / 43)⟩ ⟨2, 9, 42⟩ = ⟨0, 0, -(1 / 2 ^ 54)⟩ := by
      unfold Arith.cross
      rw [hA.arith.rd]
      dsimp only
      rw [lost_k1, lost_k2, lost_k3, lost_m1, lost_m2, lost_m3, lost_m4, lost_m5, lost_m6, sub_self, sub_self, rn_zero,
        show (7540911003969202 / 2 ^ 54 - 7540911003969203 / 2 ^ 54 : ℝ) = -(1 / 2 ^ 54) by norm_num, rn_neg, rn_rep r54]
    rw [hcr]
    have hd : A.dot ⟨0, 0, -(1 / 2 ^ 54)⟩ ⟨0, 0, -(1 / 2 ^ 54)⟩ = 1 / 2 ^ 54 * (1 / 2 ^ 54) := by
      unfold Arith.dot
      rw [hA.arith.rd]
      dsimp only
      rw [mul_zero, rn_zero, add_zero, rn_zero, zero_add, neg_mul_neg, rn_rep r108, rn_rep r108]
    unfold normalizeD Arith.vdiv?
    rw [hd, sqrt_mul_self (by positivity), hA.arith.rd, rn_rep r54, if_neg (by norm_num), zero_div, rn_zero, neg_div, div_self (by norm_num), rn_neg, rn_one]

/-- **C94**: next to that direction the result may be numbers with a wrong speed: for a planet moving at (2, 9, 42) km/s and a spacecraft at (4, 18, 84) km/s, in the same
direction, a fly-by that turns by 60° makes it lose more than half of its relative speed. In exact arithmetic the result is not a number. -/
theorem C94_speed_lost {A : Libm} (hA : A.Double) : fbVout ⟨4, 18, 84⟩ ⟨2, 9, 42⟩ 1 0 1849 = none ∧
    ∃ vo, fbVoutD A ⟨4, 18, 84⟩ ⟨2, 9, 42⟩ 1 0 1849 = some vo ∧ norm (⟨4, 18, 84⟩ - ⟨2, 9, 42⟩ : V3 ℝ) = 43 ∧ norm (vo - ⟨2, 9, 42⟩) < 17.2 := by
  have hu := u_pos
  have hus := u_small
  have s43 : √(1849 : ℝ) = 43 := by rw [show (1849 : ℝ) = 43 ^ 2 by norm_num, sqrt_sq (by norm_num)]
  refine ⟨C26_parallel _ _ _ (by ext <;> norm_num), ?_⟩
  obtain ⟨e1, e2, e3, e4, e5⟩ := lost_axes hA
  obtain ⟨δ, rδ, eδ⟩ := turnD_err hA.arith (rp := 1) (mu := 1849) (v2 := 1849) (v2' := 1849) (by norm_num) (by norm_num) (by norm_num)
    ((Near.exact (by norm_num)).mono (by norm_num))
  have run : fbVoutD A ⟨4, 18, 84⟩ ⟨2, 9, 42⟩ 1 0 1849 = some
      ⟨outD A.toArith 43 (A.cos δ) (A.sin δ) (A.cos 0) (A.sin 0) 2 (rn (2 / 43)) 0 (A.cross ⟨rn (2 / 43), rn (9 / 43), rn (42 / 43)⟩ ⟨0, 0, -1⟩).x,
      outD A.toArith 43 (A.cos δ) (A.sin δ) (A.cos 0) (A.sin 0) 9 (rn (9 / 43)) 0 (A.cross ⟨rn (2 / 43), rn (9 / 43), rn (42 / 43)⟩ ⟨0, 0, -1⟩).y,
      outD A.toArith 43 (A.cos δ) (A.sin δ) (A.cos 0) (A.sin 0) 42 (rn (42 / 43)) (-1) (A.cross ⟨rn (2 / 43), rn (9 / 43), rn (42 / 43)⟩ ⟨0, 0, -1⟩).z⟩ := by
    unfold fbVoutD
    dsimp only
    rw [e1, e2, e3, rδ]
    simp only [Option.bind_eq_bind, Option.bind_some]
    rw [e4]
    simp only [Option.bind_some]
    rw [e5]
    rfl
  refine ⟨_, run, ?_, ?_⟩
  · unfold V3.norm V3.dot
    norm_num
    exact s43
  have har : 2 * arcsin (1 / (1 + 1 * 1849 / 1849 : ℝ)) = π / 3 := by
    rw [show (1 / (1 + 1 * 1849 / 1849) : ℝ) = sin (π / 6) by rw [sin_pi_div_six]; norm_num, arcsin_sin (by linarith [pi_pos]) (by linarith [pi_pos])]
    ring
  rw [har, show (1 + 1849 / (1 * 1849) : ℝ) = 2 by norm_num] at eδ
  have hs2 : √(2 : ℝ) ≤ 2 := by rw [sqrt_le_left (by norm_num)]; norm_num
  have eδ' : |δ - π / 3| ≤ 160 * u := eδ.trans (by nlinarith)
  have hcos : |cos δ - 1 / 2| ≤ 160 * u := by
    have := abs_cos_sub_cos_le δ (π / 3)
    rw [cos_pi_div_three] at this
    exact this.trans eδ'
  have hsin : |sin δ - √3 / 2| ≤ 160 * u := by
    have := abs_sin_sub_sin_le δ (π / 3)
    rw [sin_pi_div_three] at this
    exact this.trans eδ'
  have hs3 : 1.732 ≤ √(3 : ℝ) := le_sqrt_of_sq_le (by norm_num)
  have hs3' : √(3 : ℝ) ≤ 1.733 := by rw [sqrt_le_left (by norm_num)]; norm_num
  have hk : ∀ k : ℝ, |k| ≤ 1 → |k - k| ≤ 55 * u := fun k _ => by simp; linarith
  have h43 : |(43 : ℝ) - 43| ≤ 6.1 * u * 43 := by simp; linarith
  have hsin0 : A.sin 0 = 0 := by have := hA.sin 0; simpa using this
  have key : ∀ p i j k : ℝ, |i| ≤ 1 → |j| ≤ 1 → |outD A.toArith 43 (A.cos δ) (A.sin δ) (A.cos 0) (A.sin 0) p (rn i) j k - (p + 43 * cos δ * i + 43 * sin δ * j)|
      ≤ 160 * u * 43 + 3.03 * u * |p| := by
    intro p i j k hi hj
    have hk0 : outD A.toArith 43 (A.cos δ) (A.sin δ) (A.cos 0) (A.sin 0) p (rn i) j k = outD A.toArith 43 (A.cos δ) (A.sin δ) (A.cos 0) (A.sin 0) p (rn i) j 0 := by
      unfold outD
      rw [hsin0, hA.arith.rd, mul_zero, rn_zero, zero_mul, rn_zero, zero_mul, zero_mul]
    rw [hk0]
    have h := outD_err hA.arith (p := p) (i := rn i) (i₀ := i) (j := j) (j₀ := j) (k := 0) (k₀ := 0) (κ := u) (by norm_num : (0 : ℝ) ≤ 43) h43 (cos_err hA δ) (sin_err hA δ)
      (cos_err hA 0) (sin_err hA 0) (abs_cos_le_one _) (abs_sin_le_one _) (abs_cos_le_one _) (abs_sin_le_one _)
      ((rn_err' i).trans (by nlinarith [abs_nonneg i])) (by simp; linarith) (by simp; linarith) hi hj (by simp) le_rfl (by linarith)
    rw [cos_zero, sin_zero] at h
    rw [show p + 43 * cos δ * i + 43 * sin δ * j = p + 43 * cos δ * i + 43 * 1 * sin δ * j + 43 * 0 * sin δ * 0 by ring]
    exact h
  have hx := key 2 (2 / 43) 0 (A.cross ⟨rn (2 / 43), rn (9 / 43), rn (42 / 43)⟩ ⟨0, 0, -1⟩).x (by rw [abs_le]; norm_num) (by simp)
  have hy := key 9 (9 / 43) 0 (A.cross ⟨rn (2 / 43), rn (9 / 43), rn (42 / 43)⟩ ⟨0, 0, -1⟩).y (by rw [abs_le]; norm_num) (by simp)
  have hz := key 42 (42 / 43) (-1) (A.cross ⟨rn (2 / 43), rn (9 / 43), rn (42 / 43)⟩ ⟨0, 0, -1⟩).z (by rw [abs_le]; norm_num) (by simp)
  generalize outD A.toArith 43 (A.cos δ) (A.sin δ) (A.cos 0) (A.sin 0) 2 (rn (2 / 43)) 0 _ = X at *
  generalize outD A.toArith 43 (A.cos δ) (A.sin δ) (A.cos 0) (A.sin 0) 9 (rn (9 / 43)) 0 _ = Y at *
  generalize outD A.toArith 43 (A.cos δ) (A.sin δ) (A.cos 0) (A.sin 0) 42 (rn (42 / 43)) (-1) _ = Z at *
  rw [abs_of_pos (by norm_num : (0 : ℝ) < 2)] at hx
  rw [abs_of_pos (by norm_num : (0 : ℝ) < 9)] at hy
  rw [abs_of_pos (by norm_num : (0 : ℝ) < 42)] at hz
  rw [abs_le] at hx hy hz hcos hsin
  have x1 : |X - 2| ≤ 1.001 := by rw [abs_le]; constructor <;> linarith
  have y1 : |Y - 9| ≤ 4.501 := by rw [abs_le]; constructor <;> linarith
  have z1 : |Z - 42| ≤ 16.3 := by rw [abs_le]; constructor <;> linarith
  have hq : norm ((⟨X, Y, Z⟩ : V3 ℝ) - ⟨2, 9, 42⟩) ≤ 17 := by
    unfold V3.norm V3.dot
    rw [sqrt_le_left (by norm_num)]
    simp only [sub_x, sub_y, sub_z]
    have sq : ∀ t m : ℝ, |t| ≤ m → t * t ≤ m * m := fun t m ht => by
      rw [← abs_mul_abs_self t]; exact mul_le_mul ht ht (abs_nonneg _) ((abs_nonneg _).trans ht)
    have := sq _ _ x1; have := sq _ _ y1; have := sq _ _ z1
    norm_num at *
    linarith
  linarith

/-- A fly-by of the Earth meets the hypotheses. -/
example : ∃ vo, fbVoutD Libm.rounded ⟨31, 5, 1⟩ ⟨29, 3, 0⟩ 7000 (1 / 2) 398600 = some vo ∧ |norm (vo - ⟨29, 3, 0⟩) - 3| < 1 / 10 ^ 12 := by
  have hV : norm (⟨31, 5, 1⟩ - ⟨29, 3, 0⟩ : V3 ℝ) = 3 := by
    unfold V3.norm V3.dot
    rw [sqrt_eq_iff_mul_self_eq_of_pos (by norm_num)]; norm_num
  have hW : norm (⟨29, 3, 0⟩ : V3 ℝ) ≤ 30 := by
    unfold V3.norm V3.dot
    rw [sqrt_le_left (by norm_num)]; norm_num
  have hs : 52 ≤ norm (cross ⟨31, 5, 1⟩ ⟨29, 3, 0⟩ : V3 ℝ) := by
    unfold V3.norm V3.dot V3.cross
    apply le_sqrt_of_sq_le; norm_num
  have hc : cross ⟨31, 5, 1⟩ ⟨29, 3, 0⟩ ≠ (0 : V3 ℝ) := by
    intro h; rw [h] at hs; simp [V3.norm, V3.dot] at hs; linarith
  have hW0 := norm_nonneg (⟨29, 3, 0⟩ : V3 ℝ)
  obtain ⟨vo, h1, h2⟩ := C94_speed Libm.rounded_double (rp := 7000) (mu := 398600) (by norm_num) (by norm_num) hc (by rw [hV]; norm_num; linarith) (1 / 2)
  refine ⟨vo, h1, ?_⟩
  rw [hV] at h2
  have h3 : 3 * norm (⟨29, 3, 0⟩ : V3 ℝ) / norm (cross ⟨31, 5, 1⟩ ⟨29, 3, 0⟩ : V3 ℝ) ≤ 2 := by
    rw [div_le_iff₀ (by linarith)]; linarith
  refine h2.trans_lt ?_
  calc _ ≤ (1 : ℝ) / 2 ^ 53 * (6 * 30 + 280 * 3 * 2) := by gcongr
    _ < _ := by norm_num

end Kep3
