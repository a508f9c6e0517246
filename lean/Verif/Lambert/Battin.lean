import Verif.Lambert.Curve
import Mathlib.Analysis.Calculus.Deriv.MeanValue

/-!
# Battin's series
-/

namespace Kep3
open Real V3

namespace Lambert

/-- The coefficients without the powers. -/
noncomputable def cHyp : ℕ → ℝ
  | 0 => 1
  | j + 1 => cHyp j * (3 + j) / (2.5 + j)

theorem cHyp_pos (j : ℕ) : 0 < cHyp j := by
  induction j with
  | zero => norm_num [cHyp]
  | succ j ih => unfold cHyp; positivity

theorem hypC_eq (z : ℝ) (j : ℕ) : hypC z j = cHyp j * z ^ j := by
  induction j with
  | zero => simp [hypC, cHyp]
  | succ j ih =>
    unfold hypC cHyp
    rw [ih]
    have : (2.5 + (j : ℝ)) ≠ 0 := by positivity
    field_simp
    ring

theorem cHyp_succ (j : ℕ) : cHyp (j + 1) * (2.5 + j) = cHyp j * (3 + j) := by
  show cHyp j * (3 + j) / (2.5 + j) * (2.5 + j) = _
  have : (2.5 + (j : ℝ)) ≠ 0 := by positivity
  field_simp

/-- The derivative of the partial sums. -/
noncomputable def dHyp (z : ℝ) : ℕ → ℝ
  | 0 => 0
  | j + 1 => dHyp z j + cHyp (j + 1) * ((j + 1) * z ^ j)

theorem hasDerivAt_hypS (z : ℝ) (n : ℕ) : HasDerivAt (fun z => hypS z n) (dHyp z n) z := by
  induction n with
  | zero => exact hasDerivAt_const z (1 : ℝ)
  | succ n ih =>
    have h := ih.add ((hasDerivAt_pow (n + 1) z).const_mul (cHyp (n + 1)))
    refine (h.congr_deriv ?_).congr_of_eventuallyEq (Filter.Eventually.of_forall fun z => ?_)
    · simp [dHyp]
    · show hypS z n + hypC z (n + 1) = _
      rw [hypC_eq]; rfl

/-- The differential equation, with the remainder of the truncation. -/
theorem hypS_ode (z : ℝ) (n : ℕ) :
    z * (1 - z) * dHyp z n + (3 / 2 - 3 * z) * hypS z n = 3 / 2 - (n + 3) * (cHyp n * z ^ n) * z := by
  induction n with
  | zero => simp [dHyp, hypS, cHyp]
  | succ n ih =>
    show z * (1 - z) * (dHyp z n + cHyp (n + 1) * ((n + 1) * z ^ n)) + (3 / 2 - 3 * z) * (hypS z n + hypC z (n + 1)) = _
    rw [hypC_eq]
    have h := cHyp_succ n
    push_cast
    norm_num at h
    linear_combination ih + z ^ n * z * h

/-- Comparison of a function with a multiple of another one. -/
theorem compare {G B : ℝ → ℝ} {G' B' : ℝ → ℝ} {K P : ℝ} (hP : 0 ≤ P) (hG : ∀ t, HasDerivAt G (G' t) t)
    (hB : ∀ t, HasDerivAt B (B' t) t) (h : ∀ t, 0 < t → t < P → |G' t| ≤ K * B' t) (hG0 : G 0 = 0) (hB0 : B 0 = 0) :
    |G P| ≤ K * B P := by
  have aux : ∀ e : ℝ, |e| = 1 → 0 ≤ K * B P + e * G P := by
    intro e he
    have hd : ∀ t, HasDerivAt (fun t => K * B t + e * G t) (K * B' t + e * G' t) t := fun t =>
      ((hB t).const_mul K).add ((hG t).const_mul e)
    have hm : MonotoneOn (fun t => K * B t + e * G t) (Set.Icc 0 P) := by
      apply monotoneOn_of_deriv_nonneg (convex_Icc 0 P)
      · exact fun t _ => (hd t).continuousAt.continuousWithinAt
      · exact fun t _ => (hd t).differentiableAt.differentiableWithinAt
      · intro t ht
        rw [interior_Icc] at ht
        rw [(hd t).deriv]
        have h1 := h t ht.1 ht.2
        have h2 : -|G' t| ≤ e * G' t := by
          have := neg_abs_le (e * G' t)
          rwa [abs_mul, he, one_mul] at this
        linarith
    have := hm ⟨le_refl 0, hP⟩ ⟨hP, le_refl P⟩ hP
    simpa [hG0, hB0] using this
  have h1 := aux 1 (by simp)
  have h2 := aux (-1) (by simp)
  rw [abs_le]
  constructor <;> linarith

/-- The truncated series against the closed form, on ellipses. -/
theorem series_ell (n : ℕ) {P : ℝ} (h0 : 0 ≤ P) (h1 : P ≤ π) :
    |4 / 3 * hypS (sin (P / 2) ^ 2) n * sin P ^ 3 - (2 * P - sin (2 * P))|
      ≤ 2 / 3 * (n + 3) * (cHyp n * (sin (P / 2) ^ 2) ^ n) * sin (P / 2) ^ 2 * (2 * P - sin (2 * P)) := by
  have hz : ∀ t, HasDerivAt (fun t => sin (t / 2) ^ 2) (sin t / 2) t := by
    intro t
    have h := ((hasDerivAt_sin (t / 2)).comp t ((hasDerivAt_id t).div_const 2)).pow 2
    refine h.congr_deriv ?_
    have : sin t = 2 * sin (t / 2) * cos (t / 2) := by rw [← sin_two_mul]; congr 1; ring
    rw [this]; simp; ring
  have hs : ∀ t, HasDerivAt (fun t => sin t ^ 3) (3 * sin t ^ 2 * cos t) t := fun t => by
    have h := (hasDerivAt_sin t).pow 3
    exact h.congr_deriv (by simp)
  have hB : ∀ t, HasDerivAt (fun t => 2 * t - sin (2 * t)) (4 * sin t ^ 2) t := by
    intro t
    have h := ((hasDerivAt_id t).const_mul 2).sub ((hasDerivAt_sin (2 * t)).comp t ((hasDerivAt_id t).const_mul 2))
    refine h.congr_deriv ?_
    simp only [mul_one]
    rw [cos_two_mul, cos_sq']; ring
  have hG : ∀ t, HasDerivAt (fun t => 4 / 3 * hypS (sin (t / 2) ^ 2) n * sin t ^ 3 - (2 * t - sin (2 * t)))
      (-(4 * sin t ^ 2 * (2 / 3 * (n + 3) * (cHyp n * (sin (t / 2) ^ 2) ^ n) * sin (t / 2) ^ 2))) t := by
    intro t
    have h := ((((hasDerivAt_hypS (sin (t / 2) ^ 2) n).comp t (hz t)).const_mul (4 / 3)).mul (hs t)).sub (hB t)
    refine h.congr_deriv ?_
    have ho := hypS_ode (sin (t / 2) ^ 2) n
    have e1 : sin t = 2 * sin (t / 2) * cos (t / 2) := by rw [← sin_two_mul]; congr 1; ring
    have e2 : cos t = 1 - 2 * sin (t / 2) ^ 2 := by
      rw [show cos t = cos (2 * (t / 2)) by congr 1; ring, cos_two_mul, cos_sq']; ring
    have e3 : cos (t / 2) ^ 2 = 1 - sin (t / 2) ^ 2 := cos_sq' _
    have e4 : sin t ^ 2 = 4 * (sin (t / 2) ^ 2 * (1 - sin (t / 2) ^ 2)) := by rw [e1, mul_pow, mul_pow, e3]; ring
    simp only [Function.comp]
    generalize sin (t / 2) ^ 2 = z at *
    rw [e2]
    generalize hypS z n = H at *
    generalize dHyp z n = dH at *
    generalize cHyp n * z ^ n = c at *
    linear_combination (2 / 3 * dH * sin t ^ 2) * e4 + (8 / 3 * sin t ^ 2) * ho
  have hpi := pi_pos
  refine compare (G := fun t => 4 / 3 * hypS (sin (t / 2) ^ 2) n * sin t ^ 3 - (2 * t - sin (2 * t)))
    (B := fun t => 2 * t - sin (2 * t)) h0 hG hB ?_ (by simp) (by simp)
  intro t ht0 htP
  have hle : sin (t / 2) ^ 2 ≤ sin (P / 2) ^ 2 := by
    have a1 : 0 ≤ sin (t / 2) := sin_nonneg_of_nonneg_of_le_pi (by linarith) (by linarith)
    exact pow_le_pow_left₀ a1 (sin_le_sin_of_le_of_le_pi_div_two (by linarith) (by linarith) (by linarith)) 2
  have hc := (cHyp_pos n).le
  have hp : (sin (t / 2) ^ 2) ^ n * sin (t / 2) ^ 2 ≤ (sin (P / 2) ^ 2) ^ n * sin (P / 2) ^ 2 := by
    have := pow_le_pow_left₀ (sq_nonneg (sin (t / 2))) hle n
    gcongr
  rw [abs_neg, abs_of_nonneg (by positivity)]
  have e : ∀ a : ℝ, 2 / 3 * ((n : ℝ) + 3) * (cHyp n * a ^ n) * a = 2 / 3 * (n + 3) * cHyp n * (a ^ n * a) := fun a => by ring
  rw [e, e, mul_comm (4 * sin t ^ 2)]
  gcongr

/-- The truncated series against the closed form, on hyperbolas. -/
theorem series_hyp (n : ℕ) {P : ℝ} (h0 : 0 ≤ P) :
    |4 / 3 * hypS (-sinh (P / 2) ^ 2) n * sinh P ^ 3 - (sinh (2 * P) - 2 * P)|
      ≤ 2 / 3 * (n + 3) * (cHyp n * (sinh (P / 2) ^ 2) ^ n) * sinh (P / 2) ^ 2 * (sinh (2 * P) - 2 * P) := by
  have hz : ∀ t, HasDerivAt (fun t => -sinh (t / 2) ^ 2) (-(sinh t / 2)) t := by
    intro t
    have h := (((hasDerivAt_sinh (t / 2)).comp t ((hasDerivAt_id t).div_const 2)).pow 2).neg
    refine h.congr_deriv ?_
    have : sinh t = 2 * sinh (t / 2) * cosh (t / 2) := by rw [← sinh_two_mul]; congr 1; ring
    rw [this]; simp; ring
  have hs : ∀ t, HasDerivAt (fun t => sinh t ^ 3) (3 * sinh t ^ 2 * cosh t) t := fun t => by
    have h := (hasDerivAt_sinh t).pow 3
    exact h.congr_deriv (by simp)
  have hB : ∀ t, HasDerivAt (fun t => sinh (2 * t) - 2 * t) (4 * sinh t ^ 2) t := by
    intro t
    have h := ((hasDerivAt_sinh (2 * t)).comp t ((hasDerivAt_id t).const_mul 2)).sub ((hasDerivAt_id t).const_mul 2)
    refine h.congr_deriv ?_
    simp only [mul_one]
    rw [cosh_two_mul, cosh_sq]; ring
  have hG : ∀ t, HasDerivAt (fun t => 4 / 3 * hypS (-sinh (t / 2) ^ 2) n * sinh t ^ 3 - (sinh (2 * t) - 2 * t))
      (-(4 * sinh t ^ 2 * (2 / 3 * (n + 3) * (cHyp n * (-sinh (t / 2) ^ 2) ^ n) * -sinh (t / 2) ^ 2))) t := by
    intro t
    have h := ((((hasDerivAt_hypS (-sinh (t / 2) ^ 2) n).comp t (hz t)).const_mul (4 / 3)).mul (hs t)).sub (hB t)
    refine h.congr_deriv ?_
    have ho := hypS_ode (-sinh (t / 2) ^ 2) n
    have e1 : sinh t = 2 * sinh (t / 2) * cosh (t / 2) := by rw [← sinh_two_mul]; congr 1; ring
    have e2 : cosh t = 1 - 2 * -sinh (t / 2) ^ 2 := by
      rw [show cosh t = cosh (2 * (t / 2)) by congr 1; ring, cosh_two_mul, cosh_sq]; ring
    have e3 : cosh (t / 2) ^ 2 = 1 - -sinh (t / 2) ^ 2 := by rw [cosh_sq]; ring
    have e4 : sinh t ^ 2 = -(4 * (-sinh (t / 2) ^ 2 * (1 - -sinh (t / 2) ^ 2))) := by rw [e1, mul_pow, mul_pow, e3]; ring
    simp only [Function.comp]
    generalize -sinh (t / 2) ^ 2 = z at *
    rw [e2]
    generalize hypS z n = H at *
    generalize dHyp z n = dH at *
    generalize cHyp n * z ^ n = c at *
    linear_combination (-2 / 3 * dH * sinh t ^ 2) * e4 + (8 / 3 * sinh t ^ 2) * ho
  refine compare (G := fun t => 4 / 3 * hypS (-sinh (t / 2) ^ 2) n * sinh t ^ 3 - (sinh (2 * t) - 2 * t))
    (B := fun t => sinh (2 * t) - 2 * t) h0 hG hB ?_ (by simp) (by simp)
  intro t ht0 htP
  have hle : sinh (t / 2) ^ 2 ≤ sinh (P / 2) ^ 2 := by
    have a1 : 0 ≤ sinh (t / 2) := sinh_nonneg_iff.2 (by linarith)
    exact pow_le_pow_left₀ a1 (sinh_le_sinh.2 (by linarith)) 2
  have hc := (cHyp_pos n).le
  have hp : (sinh (t / 2) ^ 2) ^ n * sinh (t / 2) ^ 2 ≤ (sinh (P / 2) ^ 2) ^ n * sinh (P / 2) ^ 2 := by
    have := pow_le_pow_left₀ (sq_nonneg (sinh (t / 2))) hle n
    gcongr
  have e : ∀ a : ℝ, 2 / 3 * ((n : ℝ) + 3) * (cHyp n * a ^ n) * a = 2 / 3 * (n + 3) * cHyp n * (a ^ n * a) := fun a => by ring
  have habs : |(-sinh (t / 2) ^ 2) ^ n * -sinh (t / 2) ^ 2| = (sinh (t / 2) ^ 2) ^ n * sinh (t / 2) ^ 2 := by
    rw [abs_mul, abs_pow, abs_neg, abs_of_nonneg (sq_nonneg _)]
  have hA : |4 * sinh t ^ 2| = 4 * sinh t ^ 2 := abs_of_nonneg (by positivity)
  have hC : |2 / 3 * ((n : ℝ) + 3) * cHyp n| = 2 / 3 * (n + 3) * cHyp n := abs_of_nonneg (by positivity)
  rw [abs_neg, e, e, abs_mul, hA, abs_mul, hC, habs, mul_comm (4 * sinh t ^ 2)]
  gcongr

/-- For small arguments the loop ends after at most eight terms. -/
theorem hyp_run {z : ℝ} (hz : |z| ≤ 0.03) : ∃ n : ℕ, n ≤ 8 ∧ hypergeometricF z 1e-11 = some (hypS z n) ∧
    cHyp n * |z| ^ n ≤ 1e-11 := by
  have hb : ∀ j : ℕ, cHyp j * |z| ^ j ≤ 0.036 ^ j := by
    intro j
    induction j with
    | zero => simp [cHyp]
    | succ j ih =>
      have h1 : cHyp (j + 1) ≤ 1.2 * cHyp j := by
        show cHyp j * (3 + j) / (2.5 + j) ≤ _
        rw [div_le_iff₀ (by positivity)]
        have := cHyp_pos j
        have h2 : (0 : ℝ) ≤ j := Nat.cast_nonneg j
        nlinarith [mul_nonneg this.le h2]
      have hc := (cHyp_pos j).le
      calc cHyp (j + 1) * |z| ^ (j + 1) ≤ 1.2 * cHyp j * |z| ^ (j + 1) := by gcongr
        _ = (cHyp j * |z| ^ j) * (1.2 * |z|) := by ring
        _ ≤ 0.036 ^ j * (1.2 * 0.03) := by gcongr
        _ = 0.036 ^ (j + 1) := by rw [pow_succ]; norm_num
  have habs : ∀ j, |hypC z j| = cHyp j * |z| ^ j := by
    intro j; rw [hypC_eq, abs_mul, abs_of_pos (cHyp_pos j), abs_pow]
  have hex : ∃ j, ¬ (1e-11 : ℝ) < |hypC z (j + 1)| := by
    refine ⟨7, not_lt.2 ?_⟩
    rw [habs]
    exact (hb 8).trans (by norm_num)
  refine ⟨Nat.find hex + 1, ?_, ?_, ?_⟩
  · have : Nat.find hex ≤ 7 := Nat.find_min' hex (by
      refine not_lt.2 ?_
      rw [habs]
      exact (hb 8).trans (by norm_num))
    omega
  · unfold hypergeometricF
    rw [dif_pos hex]
  · have := not_lt.1 (Nat.find_spec hex)
    rwa [habs] at this

/-- The size of the argument of the series near the parabola. -/
theorem near_bounds {l x : ℝ} (hl : l ^ 2 < 1) (hx : |x - 1| < 0.01) :
    |0.5 * (1 - l - x * (yOf l x - l * x))| ≤ 0.03 ∧ yOf l x - l * x ≤ 2.04 := by
  obtain ⟨h1, h2⟩ := abs_lt.1 hx
  obtain ⟨l1, l2⟩ := abs_lt.1 ((sq_lt_one_iff_abs_lt_one _).1 hl)
  norm_num at h1 h2
  have hy := yOf_sq hl x
  have hp := yOf_pos hl x
  generalize yOf l x = y at *
  have hw1 : 1 - x ^ 2 ≤ 0.02 := by nlinarith
  have hw2 : -0.0201 ≤ 1 - x ^ 2 := by nlinarith
  have hll := sq_nonneg l
  have ya : y ^ 2 ≤ 1.0201 := by rw [hy]; nlinarith
  have yb : 0.98 ≤ y ^ 2 := by rw [hy]; nlinarith
  have y1 : y ≤ 1.0101 := by nlinarith
  have y2 : 0.9799 ≤ y := by nlinarith
  have lw1 : l * (1 - x ^ 2) ≤ 0.0201 := by
    rcases le_total 0 l with h | h <;> nlinarith
  have lw2 : -0.0201 ≤ l * (1 - x ^ 2) := by
    rcases le_total 0 l with h | h <;> nlinarith
  have xy1 : x * y ≤ 1.0203 := by nlinarith
  have xy2 : 0.97 ≤ x * y := by nlinarith
  have e : 0.5 * (1 - l - x * (y - l * x)) = 0.5 * (1 - x * y - l * (1 - x ^ 2)) := by ring
  constructor
  · rw [e, abs_le]; constructor <;> norm_num <;> linarith
  · have : -(l * x) ≤ 1.01 := by
      rcases le_total 0 l with h | h <;> nlinarith
    norm_num at this ⊢
    linarith

/-- `rho ^ 1.5` for a square. -/
theorem rpow_sq {W : ℝ} (h : 0 < W) : (W ^ 2) ^ (1.5 : ℝ) = W ^ 3 := by
  rw [← rpow_natCast W 2, ← rpow_mul h.le, ← rpow_natCast W 3]
  norm_num

/-- The error of Battin's formula. -/
theorem battin {l x : ℝ} (hl : l ^ 2 < 1) (hx : |x - 1| < 0.01) (hne : x ≠ 1) {N : ℕ} (hN : x < 1 ∨ N = 0) :
    ∃ T, x2tofBattin l x N = some T ∧ |T - tofX l x N| ≤ 1e-10 := by
  obtain ⟨hz, hη⟩ := near_bounds hl hx
  have hη0 := yOf_sub hl x
  obtain ⟨n, hn8, hrun, hterm⟩ := hyp_run hz
  have hn8' : (n : ℝ) ≤ 8 := by exact_mod_cast hn8
  have hη3 : (yOf l x - l * x) ^ 3 ≤ 8.5 := by
    have : (yOf l x - l * x) ^ 3 ≤ 2.04 ^ 3 := pow_le_pow_left₀ hη0.le hη 3
    exact this.trans (by norm_num)
  unfold x2tofBattin
  simp only
  rw [sqrt?_y hl]
  simp only [Option.bind_eq_bind, Option.bind_some]
  rw [hrun]
  simp only [Option.bind_some]
  -- both cases end in the same estimate
  have fin : ∀ (z Sn s3 B R T : ℝ), 0 < s3 → |z| ≤ 0.03 → cHyp n * |z| ^ n ≤ 1e-11 → 0 ≤ B →
      |4 / 3 * 1 * s3 - B| ≤ 2 * |z| * B →
      |4 / 3 * Sn * s3 - B| ≤ 2 / 3 * (n + 3) * (cHyp n * |z| ^ n) * |z| * B →
      T = (yOf l x - l * x) ^ 3 / 2 * (B / s3) + 2 * l * (yOf l x - l * x) + R →
      |((yOf l x - l * x) * (yOf l x - l * x) * (yOf l x - l * x) * (4 / 3 * Sn) + 4 * l * (yOf l x - l * x)) / 2 + R - T|
        ≤ 1e-10 := by
    intro z Sn s3 B R T hs3 hz ht hB h0 h1 hT
    have hB2 : B ≤ 1.5 * s3 := by
      have := (abs_le.1 h0).1
      have hzB : |z| * B ≤ 0.03 * B := by gcongr
      norm_num at hzB
      linarith
    have hK : 2 / 3 * ((n : ℝ) + 3) * (cHyp n * |z| ^ n) * |z| ≤ 2 / 3 * (8 + 3) * 1e-11 * 0.03 := by
      have hc := (cHyp_pos n).le
      gcongr
    have h2 : |4 / 3 * Sn * s3 - B| ≤ 1e-11 * s3 := by
      refine h1.trans ?_
      calc 2 / 3 * ((n : ℝ) + 3) * (cHyp n * |z| ^ n) * |z| * B ≤ 2 / 3 * (8 + 3) * 1e-11 * 0.03 * B := by gcongr
        _ ≤ 2 / 3 * (8 + 3) * 1e-11 * 0.03 * (1.5 * s3) := by gcongr
        _ ≤ 1e-11 * s3 := by
          have : (2 / 3 * (8 + 3) * 1e-11 * 0.03 * 1.5 : ℝ) ≤ 1e-11 := by norm_num
          nlinarith
    have e : ((yOf l x - l * x) * (yOf l x - l * x) * (yOf l x - l * x) * (4 / 3 * Sn) + 4 * l * (yOf l x - l * x)) / 2 + R - T
        = (yOf l x - l * x) ^ 3 / 2 * ((4 / 3 * Sn * s3 - B) / s3) := by
      rw [hT]; field_simp; ring
    have hp3 : |(yOf l x - l * x) ^ 3 / 2| = (yOf l x - l * x) ^ 3 / 2 := abs_of_pos (by positivity)
    rw [e, abs_mul, hp3, abs_div, abs_of_pos hs3]
    have h3 : |4 / 3 * Sn * s3 - B| / s3 ≤ 1e-11 := by rw [div_le_iff₀ hs3]; exact h2
    calc (yOf l x - l * x) ^ 3 / 2 * (|4 / 3 * Sn * s3 - B| / s3) ≤ 8.5 / 2 * 1e-11 := by gcongr
      _ ≤ 1e-10 := by norm_num
  rcases lt_or_gt_of_ne hne with h | h
  · have h1 : -1 < x := by have := (abs_lt.1 hx).1; norm_num at this; linarith
    have hw : 0 < 1 - x ^ 2 := by nlinarith
    have hW := sqrt_pos.2 hw
    have hW2 := sq_sqrt hw.le
    obtain ⟨hs, hc, p1, p2⟩ := angE_facts hl h1 h
    have hzz : 0.5 * (1 - l - x * (yOf l x - l * x)) = sin (angE l x / 2) ^ 2 := by
      have : cos (angE l x) = 1 - 2 * sin (angE l x / 2) ^ 2 := by
        rw [show cos (angE l x) = cos (2 * (angE l x / 2)) by congr 1; ring, cos_two_mul, cos_sq']; ring
      rw [hc] at this
      norm_num
      linarith
    have habs : |sin (angE l x / 2) ^ 2| = sin (angE l x / 2) ^ 2 := abs_of_nonneg (sq_nonneg _)
    have h0 := series_ell 0 p1.le p2.le
    have h1' := series_ell n p1.le p2.le
    rw [hzz] at hz hterm ⊢
    rw [show |x * x - 1| = √(1 - x ^ 2) ^ 2 by rw [hW2, abs_of_neg (by nlinarith)]; ring, rpow_sq hW,
      div?_ok (by positivity)]
    have hB : 0 ≤ 2 * angE l x - sin (2 * angE l x) := by
      have := sin_le (show 0 ≤ 2 * angE l x by linarith); linarith
    refine ⟨_, rfl, fin (sin (angE l x / 2) ^ 2) _ (sin (angE l x) ^ 3) (2 * angE l x - sin (2 * angE l x)) _ _
      (pow_pos (sin_pos_of_pos_of_lt_pi p1 p2) 3) hz hterm hB ?_ ?_ ?_⟩
    · rw [habs]
      simp only [hypS, cHyp] at h0
      norm_num at h0 ⊢
      linarith
    · rw [habs]; exact h1'
    · have hid := eta_id hl x
      unfold tofX tofE
      rw [if_pos h, sin_two_mul, hs, hc, ← hW2]
      rw [← hW2] at hid
      rw [sqrt_sq hW.le]
      generalize √(1 - x ^ 2) = W at *
      generalize angE l x = A at *
      generalize yOf l x = y at *
      rw [show (A + N * π) / W - x + l * y = (A + N * π) / W + (l * y - x) by ring, ← hid]
      field_simp
      ring
  · have hN0 : N = 0 := hN.resolve_left h.not_gt
    subst hN0
    have hw : 0 < x ^ 2 - 1 := by nlinarith
    have hW := sqrt_pos.2 hw
    have hW2 := sq_sqrt hw.le
    have hs := (angH_facts (l := l) h).1
    have hc := (angH_facts (l := l) h).2
    have p1 := angH_pos hl h
    have hzz : 0.5 * (1 - l - x * (yOf l x - l * x)) = -sinh (angH l x / 2) ^ 2 := by
      have : cosh (angH l x) = 1 + 2 * sinh (angH l x / 2) ^ 2 := by
        rw [show cosh (angH l x) = cosh (2 * (angH l x / 2)) by congr 1; ring, cosh_two_mul, cosh_sq]; ring
      rw [hc] at this
      norm_num
      linarith
    have habs : |-sinh (angH l x / 2) ^ 2| = sinh (angH l x / 2) ^ 2 := by rw [abs_neg, abs_of_nonneg (sq_nonneg _)]
    have h0 := series_hyp 0 p1.le
    have h1' := series_hyp n p1.le
    rw [hzz] at hz hterm ⊢
    rw [show |x * x - 1| = √(x ^ 2 - 1) ^ 2 by rw [hW2, abs_of_pos (by nlinarith)]; ring, rpow_sq hW,
      div?_ok (by positivity)]
    have hB : 0 ≤ sinh (2 * angH l x) - 2 * angH l x := by
      have := self_le_sinh_iff.2 (show 0 ≤ 2 * angH l x by linarith); linarith
    refine ⟨_, rfl, fin (-sinh (angH l x / 2) ^ 2) _ (sinh (angH l x) ^ 3) (sinh (2 * angH l x) - 2 * angH l x) _ _
      (pow_pos (sinh_pos_iff.2 p1) 3) hz hterm hB ?_ ?_ ?_⟩
    · rw [habs]
      simp only [hypS, cHyp] at h0
      norm_num at h0 ⊢
      linarith
    · rw [habs]; exact h1'
    · have hid := eta_id hl x
      unfold tofX tofH
      rw [if_neg h.not_gt, if_neg h.ne', sinh_two_mul, hs, hc, ← hW2]
      rw [show 1 - x ^ 2 = -(x ^ 2 - 1) by ring, ← hW2] at hid
      rw [sqrt_sq hW.le, show 1 - x ^ 2 = -√(x ^ 2 - 1) ^ 2 by rw [hW2]; ring]
      generalize √(x ^ 2 - 1) = W at *
      generalize angH l x = A at *
      generalize yOf l x = y at *
      rw [show x - l * y - A / W = -(l * y - x) - A / W by ring, ← hid]
      field_simp
      ring

end Lambert
end Kep3
