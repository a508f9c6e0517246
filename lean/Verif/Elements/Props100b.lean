import Verif.Elements.Props100

/-!
# C100: to equinoctial elements and back in double precision
-/

namespace Kep3
open Real Fl

/-- A vector near `m (cos W, sin W)` in polar form. -/
theorem polar_pert {m W x y δ : ℝ} (hm : 0 < m) (hx : |x - m * cos W| ≤ δ * m) (hy : |y - m * sin W| ≤ δ * m) (hδ : δ ≤ 0.001) :
    ∃ m' θ, 0 < m' ∧ x = m' * cos θ ∧ y = m' * sin θ ∧ |m' - m| ≤ 4.1 * δ * m ∧ ∃ k : ℤ, |θ - W - 2 * π * k| ≤ 11.3 * δ := by
  have sc : ∀ z w : ℝ, |z - m * w| ≤ δ * m → |z / m - w| ≤ δ := by
    intro z w h
    rw [show z / m - w = (z - m * w) / m by field_simp, abs_div, abs_of_pos hm, div_le_iff₀ hm]
    exact h
  have hc := sc x _ hx
  have hs := sc y _ hy
  have δ0 : 0 ≤ δ := (abs_nonneg _).trans hs
  obtain ⟨k, hk⟩ := atan2_pert hs hc hδ
  have cs := sin_sq_add_cos_sq W
  have part : ∀ z z0 : ℝ, |z0| ≤ 1 → |z - z0| ≤ δ → |z ^ 2 - z0 ^ 2| ≤ 2.01 * δ := by
    intro z z0 h0 h
    rw [show z ^ 2 - z0 ^ 2 = (z - z0) * (2 * z0 + (z - z0)) by ring, abs_mul]
    have t := abs_add_le (2 * z0) (z - z0)
    rw [abs_mul, abs_of_pos (show (0 : ℝ) < 2 by norm_num)] at t
    calc |z - z0| * |2 * z0 + (z - z0)| ≤ δ * 2.01 := mul_le_mul h (by linarith) (abs_nonneg _) δ0
      _ = _ := by ring
  have q : |(x / m) ^ 2 + (y / m) ^ 2 - 1| ≤ 4.02 * δ := by
    have p1 := part (y / m) _ (abs_sin_le_one W) hs
    have p2 := part (x / m) _ (abs_cos_le_one W) hc
    have t := abs_add_le ((x / m) ^ 2 - cos W ^ 2) ((y / m) ^ 2 - sin W ^ 2)
    rw [show (x / m) ^ 2 - cos W ^ 2 + ((y / m) ^ 2 - sin W ^ 2) = (x / m) ^ 2 + (y / m) ^ 2 - 1 by linarith] at t
    linarith
  have hpos : 0 < (x / m) ^ 2 + (y / m) ^ 2 := by linarith [(abs_le.1 q).1]
  have ec := atan2_cos hpos
  have es := atan2_sin hpos
  have ρ0 : 0 < √((x / m) ^ 2 + (y / m) ^ 2) := sqrt_pos.2 hpos
  have ρ2 : √((x / m) ^ 2 + (y / m) ^ 2) ^ 2 = (x / m) ^ 2 + (y / m) ^ 2 := sq_sqrt hpos.le
  generalize √((x / m) ^ 2 + (y / m) ^ 2) = ρ at *
  have r1 : |ρ - 1| ≤ 4.02 * δ := by
    have : |ρ - 1| ≤ |ρ ^ 2 - 1| := by
      rw [show ρ ^ 2 - 1 = (ρ - 1) * (ρ + 1) by ring, abs_mul, abs_of_pos (show 0 < ρ + 1 by linarith)]
      nlinarith [abs_nonneg (ρ - 1)]
    rw [ρ2] at this
    exact this.trans q
  refine ⟨m * ρ, _, mul_pos hm ρ0, ?_, ?_, ?_, k, hk⟩
  · rw [mul_assoc, ec]; field_simp
  · rw [mul_assoc, es]; field_simp
  · rw [show m * ρ - m = (ρ - 1) * m by ring, abs_mul, abs_of_pos hm]
    exact (mul_le_mul_of_nonneg_right r1 hm.le).trans (by nlinarith [mul_nonneg δ0 hm.le])

/-- Distance from the parabola after a small relative change of the eccentricity. -/
theorem parab_pert {e e' K η : ℝ} (e0 : 0 < e) (h : |e' - e| ≤ η * e) (hK : 1 + e ≤ K * |1 - e|) (K1 : 1 ≤ K) (hη : η * K ≤ 1 / 100) :
    1 + e' ≤ 1.1 * K * |1 - e'| ∧ Within (2.1 * (η * K)) (1 / (1 - e ^ 2)) (1 / (1 - e' ^ 2)) := by
  have η0 : 0 ≤ η := by
    by_contra hc
    have := mul_neg_of_neg_of_pos (not_le.1 hc) e0
    linarith [abs_nonneg (e' - e)]
  have η1 : η ≤ η * K := le_mul_of_one_le_right η0 K1
  have d0 : 0 < |1 - e| := by
    by_contra hc
    have : |1 - e| = 0 := le_antisymm (not_lt.1 hc) (abs_nonneg _)
    rw [this, mul_zero] at hK
    linarith
  have t1 : |1 - e| - |e' - e| ≤ |1 - e'| := by
    have := abs_sub_abs_le_abs_sub (1 - e) (e' - e)
    rwa [show 1 - e - (e' - e) = 1 - e' by ring] at this
  have he : |e' - e| ≤ η * K * |1 - e| := h.trans (by nlinarith)
  have t2 : 0.99 * |1 - e| ≤ |1 - e'| := by nlinarith
  have hb := abs_le.1 h
  have t3 : 1 + e' ≤ 1.01 * (1 + e) := by nlinarith
  have hx : 1 - e ^ 2 = (1 - e) * (1 + e) := by ring
  have hy : 1 - e' ^ 2 = (1 - e') * (1 + e') := by ring
  have e'0 : 0 < e' := by nlinarith
  have h1 : 1 - e ≠ 0 := abs_pos.1 d0
  have h2 : 1 - e' ≠ 0 := abs_pos.1 (by linarith)
  constructor
  · calc 1 + e' ≤ 1.01 * (K * |1 - e|) := by linarith
      _ ≤ 1.1 * K * (0.99 * |1 - e|) := by nlinarith [mul_pos (show 0 < K by linarith) d0]
      _ ≤ _ := mul_le_mul_of_nonneg_left t2 (by linarith)
  · have nx : 1 - e ^ 2 ≠ 0 := by rw [hx]; exact mul_ne_zero h1 (by linarith)
    have ny : 1 - e' ^ 2 ≠ 0 := by rw [hy]; exact mul_ne_zero h2 (by linarith)
    unfold Within
    rw [show 1 / (1 - e' ^ 2) - 1 / (1 - e ^ 2) = 1 / (1 - e ^ 2) * ((e' - e) * (e' + e) / (1 - e' ^ 2)) by field_simp; ring, abs_mul, mul_comm]
    refine mul_le_mul_of_nonneg_right ?_ (abs_nonneg _)
    rw [abs_div, abs_mul, hy, abs_mul, abs_of_pos (show 0 < 1 + e' by linarith), abs_of_pos (show 0 < e' + e by linarith), div_le_iff₀ (by have := abs_pos.2 h2; positivity)]
    have s1 : e' + e ≤ 2.03 * (1 + e') := by nlinarith
    calc |e' - e| * (e' + e) ≤ η * K * |1 - e| * (2.03 * (1 + e')) := mul_le_mul he s1 (by linarith) (by positivity)
      _ = 2.03 * (η * K) * (1 + e') * |1 - e| := by ring
      _ ≤ 2.03 * (η * K) * (1 + e') * (1.02 * |1 - e'|) := mul_le_mul_of_nonneg_left (by linarith) (by positivity)
      _ = 2.03 * 1.02 * (η * K * ((1 + e') * |1 - e'|)) := by ring
      _ ≤ 2.1 * (η * K * ((1 + e') * |1 - e'|)) := mul_le_mul_of_nonneg_right (by norm_num) (by positivity)
      _ = _ := by ring

/-- The inclination after a small relative change of the tangent of its half. -/
theorem inc_pert (b : Bool) {i T t' : ℝ} (i0 : 0 < i) (i1 : i < π) (hT : T = if b then 1 / tan (i / 2) else tan (i / 2)) (h : |t' - T| ≤ 45.2 * u * T) :
    |(if b then π - 2 * arctan t' else 2 * arctan t') - i| ≤ 145 * u := by
  have hu := u_pos
  have hus := u_small
  have hp := pi_lt_d4
  have t0 : 0 < tan (i / 2) := tan_pos_of_pos_of_lt_pi_div_two (by linarith) (by linarith)
  have ha : arctan (tan (i / 2)) = i / 2 := arctan_tan (by linarith) (by linarith)
  have T0 : 0 < T := by
    rw [hT]
    cases b
    · exact t0
    · exact one_div_pos.2 t0
  have e1 := arctan_rel_pos T0 (d := 45.2 * u) (by positivity) (by linarith) h
  have e2 : 45.2 * u / (1 - 45.2 * u) ≤ 45.3 * u := by
    rw [div_le_iff₀ (by linarith)]
    nlinarith
  have a0 : 0 < arctan T := arctan_pos.2 T0
  have a1 : arctan T ≤ 1.5708 := by linarith [arctan_lt_pi_div_two T]
  have e3 : |arctan t' - arctan T| ≤ 72 * u := e1.trans ((mul_le_mul e2 a1 a0.le (by positivity)).trans (by linarith))
  have e4 := abs_le.1 e3
  cases b
  · simp only [Bool.false_eq_true, if_false] at hT ⊢
    rw [hT, ha] at e4
    exact abs_le.2 ⟨by linarith, by linarith⟩
  · simp only [if_true] at hT ⊢
    have h2 : arctan T = π / 2 - i / 2 := by rw [hT, one_div, arctan_inv_of_pos t0, ha]
    rw [h2] at e4
    exact abs_le.2 ⟨by linarith, by linarith⟩

/-- The semi-major axis after both conversions. -/
theorem sma_round {a e e' p ra K S : ℝ} (e0 : 0 < e) (hK : 1 + e ≤ K * |1 - e|) (K1 : 1 ≤ K) (S0 : 0 ≤ S) (hSKu : (S + 6) * K * u ≤ 1 / 8192)
    (p1 : |p - a * (1 - e ^ 2)| ≤ 3.2 * K * u * |a * (1 - e ^ 2)|) (k2 : Within (2.1 * (4.1 * ((S + 6) * u) * K)) (1 / (1 - e ^ 2)) (1 / (1 - e' ^ 2)))
    (r2 : |ra - p / (1 - e' ^ 2)| ≤ 12 * (1.1 * K) * u * |p / (1 - e' ^ 2)|) : |ra - a| ≤ 15 * (S + 6) * K * u * |a| := by
  have hu := u_pos
  have uK : 0 < K * u := by positivity
  have uSK : 0 ≤ S * (K * u) := by positivity
  have w1 : Within (3.2 * K * u) (a * (1 - e ^ 2)) p := p1
  have hne : 1 - e ^ 2 ≠ 0 := by
    rw [show 1 - e ^ 2 = (1 - e) * (1 + e) by ring]
    refine mul_ne_zero (fun h => ?_) (by linarith)
    rw [h, abs_zero, mul_zero] at hK
    linarith
  have w2 := w1.mul k2 (by linarith)
  rw [show a * (1 - e ^ 2) * (1 / (1 - e ^ 2)) = a by field_simp, mul_one_div] at w2
  have w3 : Within (12 * (1.1 * K) * u) (p / (1 - e' ^ 2)) ra := r2
  have w4 := w2.trans w3 (by linarith) (by linarith)
  exact w4.mono (by linarith)

/-- The eccentricity after both conversions. -/
theorem ecc_round {e e' re S : ℝ} (e0 : 0 < e) (S0 : 0 ≤ S) (hSu : (S + 6) * u ≤ 1 / 8192) (he' : |e' - e| ≤ 4.1 * ((S + 6) * u) * e) (r1 : |re - e'| ≤ 4 * u * e') :
    |re - e| ≤ (5 * S + 40) * u * e := by
  have hu := u_pos
  have e1 : e' ≤ 1.01 * e := by
    have := mul_le_mul_of_nonneg_right hSu e0.le
    linarith [(abs_le.1 he').2]
  have t := abs_add_le (re - e') (e' - e)
  rw [sub_add_sub_cancel] at t
  have e2 := mul_le_mul_of_nonneg_left e1 (by positivity : 0 ≤ 4 * u)
  have e3 : 0 ≤ S * (u * e) := by positivity
  have e4 : 0 ≤ u * e := by positivity
  linarith

/-- The angles after both conversions. -/
theorem angles_round (b : Bool) {q : Par} {I S L ζ Ω f om Om : ℝ} {n1 n2 n3 n4 : ℤ} (hI : I = if b then -1 else 1) (hS : S = |q.om| + |q.Om|)
    (p6 : |L - (q.f + q.om + I * q.Om)| ≤ 2.01 * u * (|q.f| + |q.om| + |q.Om|)) (hζ : |ζ - (q.om + I * q.Om) - 2 * π * n1| ≤ 11.3 * ((S + 6) * u))
    (hΩ : |Ω - q.Om - 2 * π * n2| ≤ 11.3 * (11 * u)) (r4 : |Om - Ω - 2 * π * n3| ≤ 79 * u) (r7 : |om + I * Om - ζ - 2 * π * n4| ≤ 111 * u)
    (r9 : |f + om + I * Om - L| ≤ 2.1 * u * |L| + 20 * u) :
    (∃ n : ℤ, |Om - q.Om - 2 * π * n| ≤ 210 * u) ∧ (∃ n : ℤ, |om - q.om - 2 * π * n| ≤ (12 * S + 400) * u) ∧
      ∃ n : ℤ, |f - q.f - 2 * π * n| ≤ (17 * S + 5 * |q.f| + 210) * u := by
  have hu := u_pos
  have hus := u_small
  have S0 : 0 ≤ S := by rw [hS]; positivity
  have uS : 0 ≤ S * u := by positivity
  have hII : I = 1 ∨ I = -1 := by rw [hI]; cases b <;> simp
  have o1 : |Om - q.Om - 2 * π * ((n3 + n2 : ℤ) : ℝ)| ≤ 210 * u := by
    have t := abs_add_le (Om - Ω - 2 * π * n3) (Ω - q.Om - 2 * π * n2)
    rw [show Om - Ω - 2 * π * n3 + (Ω - q.Om - 2 * π * n2) = Om - q.Om - 2 * π * ((n3 + n2 : ℤ) : ℝ) by push_cast; ring] at t
    exact t.trans (by linarith)
  have o2 : |om + I * Om - (q.om + I * q.Om) - 2 * π * ((n4 + n1 : ℤ) : ℝ)| ≤ (11.3 * S + 180) * u := by
    have t := abs_add_le (om + I * Om - ζ - 2 * π * n4) (ζ - (q.om + I * q.Om) - 2 * π * n1)
    rw [show om + I * Om - ζ - 2 * π * n4 + (ζ - (q.om + I * q.Om) - 2 * π * n1) =
      om + I * Om - (q.om + I * q.Om) - 2 * π * ((n4 + n1 : ℤ) : ℝ) by push_cast; ring] at t
    exact t.trans (by linarith)
  generalize n3 + n2 = N at *
  generalize n4 + n1 = M at *
  refine ⟨⟨N, o1⟩, ?_, -M, ?_⟩
  · have o3 : |I * (Om - q.Om - 2 * π * N)| ≤ 210 * u := by
      rw [hI, show ((if b then -1 else 1 : ℝ)) = sgnI b from rfl, sgnI_abs]; exact o1
    obtain ⟨N', hN'⟩ : ∃ N' : ℤ, (N' : ℝ) = M - I * N := by
      rcases hII with h | h <;> rw [h]
      · exact ⟨M - N, by push_cast; ring⟩
      · exact ⟨M + N, by push_cast; ring⟩
    refine ⟨N', ?_⟩
    rw [hN']
    have t := abs_sub (om + I * Om - (q.om + I * q.Om) - 2 * π * M) (I * (Om - q.Om - 2 * π * N))
    rw [show om + I * Om - (q.om + I * q.Om) - 2 * π * M - I * (Om - q.Om - 2 * π * N) = om - q.om - 2 * π * (M - I * N) by ring] at t
    linarith
  · have hIO : |I * q.Om| = |q.Om| := by rw [hI, show ((if b then -1 else 1 : ℝ)) = sgnI b from rfl, sgnI_abs]
    have hL : |L| ≤ 1.01 * (|q.f| + S) := by
      have a1 := abs_add_le (L - (q.f + q.om + I * q.Om)) (q.f + q.om + I * q.Om)
      have a2 := abs_add_three q.f q.om (I * q.Om)
      rw [sub_add_cancel] at a1
      rw [hIO] at a2
      have a3 := abs_nonneg q.f
      have a4 : 2.01 * u * (|q.f| + |q.om| + |q.Om|) ≤ 0.01 * (|q.f| + S) := by
        rw [show |q.f| + |q.om| + |q.Om| = |q.f| + S by rw [hS]; ring]
        exact mul_le_mul_of_nonneg_right (by linarith) (by positivity)
      linarith
    have hL2 := mul_le_mul_of_nonneg_left hL (by positivity : 0 ≤ 2.1 * u)
    have p6' : |L - (q.f + q.om + I * q.Om)| ≤ 2.01 * u * (|q.f| + S) := by rw [hS, ← add_assoc]; exact p6
    have t := abs_sub ((f + om + I * Om - L) + (L - (q.f + q.om + I * q.Om))) (om + I * Om - (q.om + I * q.Om) - 2 * π * M)
    have t2 := abs_add_le (f + om + I * Om - L) (L - (q.f + q.om + I * q.Om))
    rw [show f + om + I * Om - L + (L - (q.f + q.om + I * q.Om)) - (om + I * Om - (q.om + I * q.Om) - 2 * π * M) =
      f - q.f - 2 * π * ((-M : ℤ) : ℝ) by push_cast; ring] at t
    have a5 := mul_nonneg hu.le (abs_nonneg q.f)
    refine t.trans ?_
    linarith


/-- C100, to equinoctial elements and back in double precision: `eq2par` of what `par2eq` gives is the same orbit. Neither call divides by zero, the inclination and the node
come back within 200 units of roundoff (angles modulo whole turns), the other elements within errors that grow with the size of the angles and, for the semi-major axis,
with the nearness of the parabola. -/
theorem C100_roundtrip {A : LibmT} (hA : A.Double) (hat : ∀ y x, |A.atan2 y x - atan2 y x| ≤ 4 * u * |atan2 y x|) (b : Bool) (q : Par) {K S : ℝ}
    (e0 : 0 < q.e) (hK : 1 + q.e ≤ K * |1 - q.e|) (hi : Rep q.i) (i0 : 0 < q.i) (i1 : q.i < π) (hS : S = |q.om| + |q.Om|) (hSK : (S + 6) * K ≤ 2 ^ 40) :
    ∃ m r, par2eqD A q b = some m ∧ eq2parD A m b = some r ∧
      |r.a - q.a| ≤ 15 * (S + 6) * K * u * |q.a| ∧ |r.e - q.e| ≤ (5 * S + 40) * u * q.e ∧ |r.i - q.i| ≤ 190 * u ∧
      (∃ n : ℤ, |r.Om - q.Om - 2 * π * n| ≤ 210 * u) ∧ (∃ n : ℤ, |r.om - q.om - 2 * π * n| ≤ (12 * S + 400) * u) ∧
      ∃ n : ℤ, |r.f - q.f - 2 * π * n| ≤ (17 * S + 5 * |q.f| + 210) * u := by
  have hu := u_pos
  have hus := u_small
  have S0 : 0 ≤ S := by rw [hS]; positivity
  have K1 : 1 ≤ K := by
    by_contra hc
    have : |1 - q.e| ≤ 1 + q.e := abs_le.2 ⟨by linarith, by linarith⟩
    rcases (abs_nonneg (1 - q.e)).eq_or_lt with h | h
    · rw [← h] at hK; linarith
    · have := mul_lt_of_lt_one_left h (not_le.1 hc); linarith
  have S6 : S + 6 ≤ 2 ^ 40 := le_trans (le_mul_of_one_le_right (by linarith) K1) hSK
  have KS : 6 * K ≤ 2 ^ 40 := le_trans (mul_le_mul_of_nonneg_right (by linarith) (by linarith)) hSK
  have hSKu : (S + 6) * K * u ≤ 1 / 8192 := by
    have := mul_le_mul_of_nonneg_right hSK hu.le
    refine this.trans ?_
    unfold u; norm_num
  have hSu : (S + 6) * u ≤ 1 / 8192 := by
    have := mul_le_mul_of_nonneg_right S6 hu.le
    refine this.trans ?_
    unfold u; norm_num
  obtain ⟨T, hT⟩ : ∃ T, T = if b then 1 / tan (q.i / 2) else tan (q.i / 2) := ⟨_, rfl⟩
  obtain ⟨I, hI⟩ : ∃ I : ℝ, I = if b then -1 else 1 := ⟨_, rfl⟩
  obtain ⟨m, hm, p1, p2, p3, p4, p5, p6⟩ := C100_par2eq hA b q e0.le hK (by linarith) hi i0 i1 (by linarith) hI hT
  rw [← hS] at p2 p3
  have t0 : 0 < tan (q.i / 2) := tan_pos_of_pos_of_lt_pi_div_two (by linarith) (by linarith)
  have T0 : 0 < T := by
    rw [hT]
    cases b
    · exact t0
    · exact one_div_pos.2 t0
  have ue := mul_pos hu e0
  have uT := mul_pos hu T0
  obtain ⟨e', ζ, e'0, hf, hg, he', n1, hζ⟩ := polar_pert (δ := (S + 6) * u) e0 (p2.trans (mul_le_mul_of_nonneg_right (mul_le_mul_of_nonneg_right (by linarith) hu.le) e0.le)) p3 (by linarith)
  obtain ⟨t', Ω, t'0, hh, hk, ht', n2, hΩ⟩ := polar_pert (δ := 11 * u) T0 (p4.trans (mul_le_mul_of_nonneg_right (by linarith) T0.le)) p5 (by linarith)
  obtain ⟨k1, k2⟩ := parab_pert (η := 4.1 * ((S + 6) * u)) e0 (by rw [← mul_assoc] at he'; rw [← mul_assoc]; exact he') hK K1 (by linarith)
  obtain ⟨r, hr, r1, r2, r3, ⟨n3, r4⟩, r5, r6, ⟨n4, r7⟩, r8, r9⟩ := C100_eq2par hA hat b m (K := 1.1 * K) e'0 t'0 hf hg hh hk k1 (by linarith)
  rw [← hI] at r7 r9
  refine ⟨m, r, hm, hr, ?_, ?_, ?_, ?_⟩
  · exact sma_round e0 hK K1 S0 hSKu p1 k2 r2
  · exact ecc_round e0 S0 hSu he' r1
  · have := inc_pert b i0 i1 hT (t' := t') (ht'.trans (mul_le_mul_of_nonneg_right (by linarith) T0.le))
    have t := abs_add_le (r.i - (if b then π - 2 * arctan t' else 2 * arctan t')) ((if b then π - 2 * arctan t' else 2 * arctan t') - q.i)
    rw [sub_add_sub_cancel] at t
    linarith
  · exact angles_round b hI hS p6 hζ hΩ r4 r7 r9

/-- The hypotheses are met by an orbit of eccentricity 1/2 and inclination 2: it comes back, for both signs. -/
example (b : Bool) : ∃ m r, par2eqD .rounded ⟨7, 1 / 2, 2, 1, 3, 5⟩ b = some m ∧ eq2parD .rounded m b = some r ∧ |r.a - 7| ≤ 1 / 10 ^ 10 ∧ |r.i - 2| ≤ 1 / 10 ^ 10 := by
  have hu := u_pos
  have hus := u_small
  have r2 : Rep (2 : ℝ) := ⟨1, 1, by norm_num, by norm_num⟩
  obtain ⟨m, r, h1, h2, h3, -, h4, -⟩ := C100_roundtrip LibmT.rounded_double (fun y x => rn_err4 _) b ⟨7, 1 / 2, 2, 1, 3, 5⟩ (K := 3) (S := 4) (by norm_num) (by norm_num) r2 (by norm_num)
    (by linarith [pi_gt_three]) (by norm_num) (by norm_num)
  refine ⟨m, r, h1, h2, ?_, ?_⟩
  · norm_num at h3 ⊢
    linarith
  · norm_num at h4 ⊢
    linarith

end Kep3
