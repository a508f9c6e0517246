import Verif.Lagr.Model
import Mathlib.Analysis.Real.Pi.Bounds
import Mathlib.Topology.Order.IntermediateValue

/-!
# The bracket of the elliptic branch always contains the solution
-/

namespace Kep3
open Real

/-- The increment of the initial guess over the mean anomaly difference. -/
noncomputable def igI (A B s : ℝ) : ℝ := (A - s) * (1 + B + B ^ 2 - (1 / 2) * (A - s) * A)

theorem poly_mono {A c D : ℝ} (hA : 0 ≤ A) (hA7 : A ≤ 7 / 10) (hc : 0 ≤ c) (hc1 : c ≤ 1) (hD : 0 ≤ D)
    (h : D ≤ A + c) :
    A + D * (2 - 3 / 2 * A ^ 2) - 1 / 2 * D ^ 2 * A
      ≤ A + (A + c) * (2 - 3 / 2 * A ^ 2) - 1 / 2 * (A + c) ^ 2 * A := by
  have h1 : 0 ≤ 2 - 3 / 2 * A ^ 2 - (A + c) * A := by
    have : A * c ≤ A * 1 := mul_le_mul_of_nonneg_left hc1 hA
    nlinarith
  have h2 : 0 ≤ (A + c - D) * (2 - 3 / 2 * A ^ 2 - (A + c) * A) := mul_nonneg (by linarith) h1
  nlinarith [mul_nonneg hA (sq_nonneg (A + c - D))]

theorem poly_high {A D : ℝ} (hA : 7 / 10 ≤ A) (hA1 : A ≤ 1) (hD : 0 ≤ D) (hD2 : D ≤ 2) :
    A + D * (2 - 3 / 2 * A ^ 2) - 1 / 2 * D ^ 2 * A ≤ 2.1 := by
  have h1 : D * (2 - 3 / 2 * A ^ 2) ≤ D * (2.735 - 2.1 * A) :=
    mul_le_mul_of_nonneg_left (by nlinarith [sq_nonneg (A - 7 / 10)]) hD
  have h2 : (7 / 10) * D ^ 2 ≤ A * D ^ 2 := mul_le_mul_of_nonneg_right hA (sq_nonneg D)
  have h3 : 0 ≤ (1 - A) * (0.35 * D ^ 2 - 1.265 * D + 1.4) :=
    mul_nonneg (by linarith) (by nlinarith [sq_nonneg (D - 1.8)])
  have h4 : 0 ≤ (A - 7 / 10) * (0.35 * D ^ 2 - 0.635 * D + 1.1) :=
    mul_nonneg (by linarith) (by nlinarith [sq_nonneg (D - 0.9)])
  nlinarith

/-- Polynomial bounds on the initial guess: either small, or in a region where the rest is favourable. -/
theorem igI_cases {A B s : ℝ} (h : A ^ 2 + B ^ 2 ≤ 1) (h1 : -1 ≤ s) (h2 : s ≤ 1) :
    igI A B s + s ≤ 2.14 ∨ (0 ≤ A ∧ 0 ≤ B ∧ s ≤ -(1 / 2) ∧ igI A B s + s ≤ 2.64) := by
  have hG : igI A B s + s = A + (A - s) * (B + B ^ 2) - (1 / 2) * (A - s) ^ 2 * A := by unfold igI; ring
  have hA1 : A ≤ 1 := by nlinarith [sq_nonneg B]
  have hA2 : -1 ≤ A := by nlinarith [sq_nonneg B]
  have hB1 : B ≤ 1 := by nlinarith [sq_nonneg A]
  have hB2 : -1 ≤ B := by nlinarith [sq_nonneg A]
  have hBB : -(1 / 4) ≤ B + B ^ 2 := by nlinarith [sq_nonneg (B + 1 / 2)]
  have hBu : B + B ^ 2 ≤ 2 - 3 / 2 * A ^ 2 := by
    have : B ≤ 1 - A ^ 2 / 2 := by
      by_contra hc
      have hc := not_le.1 hc
      nlinarith [sq_nonneg A, sq_nonneg (A ^ 2)]
    linarith
  rw [hG]
  obtain ⟨D, hD⟩ : ∃ D, D = A - s := ⟨_, rfl⟩
  obtain ⟨b, hb⟩ : ∃ b, b = B + B ^ 2 := ⟨_, rfl⟩
  rw [← hD, ← hb]
  rw [← hb] at hBB hBu
  have hD1 : D ≤ A + 1 := by linarith
  have hD2 : A - 1 ≤ D := by linarith
  by_cases hA : A < 0
  · left
    by_cases hD0 : 0 ≤ D
    · have : D * b ≤ D * 2 := mul_le_mul_of_nonneg_left (by nlinarith [sq_nonneg A]) hD0
      nlinarith [mul_nonneg hD0 hD0, mul_nonneg hD0 (by linarith : 0 ≤ A + 1 - D)]
    · have hD0 := not_le.1 hD0
      have : D * b ≤ D * -(1 / 4) := mul_le_mul_of_nonpos_left hBB hD0.le
      have h4 : D ^ 2 ≤ (1 - A) ^ 2 := by nlinarith
      have h5 : D ^ 2 * -A ≤ (1 - A) ^ 2 * -A := mul_le_mul_of_nonneg_right h4 (by linarith)
      norm_num
      nlinarith [mul_nonneg (mul_nonneg (by linarith : 0 ≤ -A) (by linarith : 0 ≤ -A)) (by linarith : 0 ≤ A + 1)]
  · have hA := not_lt.1 hA
    by_cases hD0 : D < 0
    · left
      have : D * b ≤ D * -(1 / 4) := mul_le_mul_of_nonpos_left hBB hD0.le
      have := mul_nonneg (sq_nonneg D) hA
      norm_num
      linarith
    · have hD0 := not_lt.1 hD0
      by_cases hB : B < 0
      · left
        have : b ≤ 0 := by rw [hb]; nlinarith
        have : D * b ≤ 0 := mul_nonpos_of_nonneg_of_nonpos hD0 this
        have := mul_nonneg (sq_nonneg D) hA
        norm_num
        linarith
      · have hB := not_lt.1 hB
        have hDb : D * b ≤ D * (2 - 3 / 2 * A ^ 2) := mul_le_mul_of_nonneg_left hBu hD0
        have hmain : ∀ c M : ℝ, 0 ≤ c → c ≤ 1 → D ≤ A + c →
            (∀ D, 0 ≤ D → D ≤ A + c → A + D * (2 - 3 / 2 * A ^ 2) - 1 / 2 * D ^ 2 * A ≤ M) →
            A + D * b - 1 / 2 * D ^ 2 * A ≤ M := by
          intro c M _ _ hc hM
          have := hM D hD0 hc
          linarith
        by_cases hs : s ≤ -(1 / 2)
        · right
          refine ⟨hA, hB, hs, ?_⟩
          refine hmain 1 2.64 (by norm_num) le_rfl hD1 ?_
          intro D hD0 hD1
          by_cases hA7 : A ≤ 7 / 10
          · exact (poly_mono hA hA7 (by norm_num) le_rfl hD0 hD1).trans (by
              nlinarith [mul_nonneg hA (sq_nonneg (A - 2 / 5)), sq_nonneg (A - 2 / 5), mul_nonneg hA hA])
          · exact (poly_high (not_le.1 hA7).le hA1 hD0 (by linarith)).trans (by norm_num)
        · left
          refine hmain (1 / 2) 2.14 (by norm_num) (by norm_num) (by linarith) ?_
          intro D hD0 hD1
          by_cases hA7 : A ≤ 7 / 10
          · exact (poly_mono hA hA7 (by norm_num) (by norm_num) hD0 hD1).trans (by
              nlinarith [mul_nonneg hA (sq_nonneg (A - 3 / 5)), sq_nonneg (A - 3 / 5), mul_nonneg hA hA])
          · exact (poly_high (not_le.1 hA7).le hA1 hD0 (by linarith)).trans (by norm_num)

theorem igI_upper {A B s : ℝ} (h : A ^ 2 + B ^ 2 ≤ 1) (h1 : -1 ≤ s) (h2 : s ≤ 1) :
    igI A B s + s + (A * cos (igI A B s) + B * sin (igI A B s)) ≤ π := by
  have hpi := pi_gt_d2
  have hpi2 := pi_lt_d2
  rcases igI_cases h h1 h2 with hs | ⟨hA, hB, hs, hG⟩
  · have : A * cos (igI A B s) + B * sin (igI A B s) ≤ 1 := by
      have := sin_sq_add_cos_sq (igI A B s)
      nlinarith [sq_nonneg (A - cos (igI A B s)), sq_nonneg (B - sin (igI A B s))]
    norm_num at *
    linarith
  · generalize igI A B s = I at *
    by_cases hI : I + s ≤ 2.14
    · have : A * cos I + B * sin I ≤ 1 := by
        have := sin_sq_add_cos_sq I
        nlinarith [sq_nonneg (A - cos I), sq_nonneg (B - sin I)]
      norm_num at *
      linarith
    · norm_num at *
      have hcos : cos I ≤ 0 := cos_nonpos_of_pi_div_two_le_of_le (by linarith) (by linarith)
      have hc : A * cos I ≤ 0 := mul_nonpos_of_nonneg_of_nonpos hA hcos
      have hB1 : B ≤ 1 := by nlinarith [sq_nonneg A]
      by_cases hp : I ≤ π
      · have h0 : 0 ≤ sin I := sin_nonneg_of_nonneg_of_le_pi (by linarith) hp
        have : sin I ≤ π - I := by rw [← sin_pi_sub]; exact sin_le (by linarith)
        have : B * sin I ≤ 1 * sin I := mul_le_mul_of_nonneg_right hB1 h0
        linarith
      · have hp := not_le.1 hp
        have h0 : sin I ≤ 0 := by
          have h' : sin I = -sin (I - π) := by rw [sin_sub_pi]; ring
          have : 0 ≤ sin (I - π) := sin_nonneg_of_nonneg_of_le_pi (by linarith) (by linarith)
          rw [h']; linarith
        have : B * sin I ≤ 0 := mul_nonpos_of_nonneg_of_nonpos hB h0
        linarith

theorem igI_lower {A B s : ℝ} (h : A ^ 2 + B ^ 2 ≤ 1) (h1 : -1 ≤ s) (h2 : s ≤ 1) :
    -π ≤ igI A B s + s + (A * cos (igI A B s) + B * sin (igI A B s)) := by
  have hn : igI (-A) B (-s) = -igI A B s := by unfold igI; ring
  have := igI_upper (A := -A) (B := B) (s := -s) (by linarith [neg_sq A]) (by linarith) (by linarith)
  rw [hn, cos_neg, sin_neg] at this
  linarith

theorem igDE_eq (DMc s0 c0 : ℝ) :
    igDE DMc (sin DMc) (cos DMc) s0 c0
      = DMc + igI (c0 * sin DMc + s0 * cos DMc) (c0 * cos DMc - s0 * sin DMc) s0 := by
  unfold igDE igI; ring

/-- Whatever the mean anomaly difference and the shape of the ellipse, the bracket of width `2 pi` around the initial
guess contains an eccentric anomaly difference solving Kepler's equation. -/
theorem kepDE_bracket {DMc sigma0 sqrta a R0 : ℝ} (ha : sqrta * sqrta = a) (ha0 : a ≠ 0)
    (he : (sigma0 / sqrta) ^ 2 + (1 - R0 / a) ^ 2 ≤ 1) :
    ∃ E, igDE DMc (sin DMc) (cos DMc) (sigma0 / sqrta) (1 - R0 / a) - π ≤ E
      ∧ E ≤ igDE DMc (sin DMc) (cos DMc) (sigma0 / sqrta) (1 - R0 / a) + π
      ∧ kepDE E DMc sigma0 sqrta a R0 = 0 := by
  rw [igDE_eq]
  generalize hs0 : sigma0 / sqrta = s0 at *
  generalize hc0 : 1 - R0 / a = c0 at *
  have hk : ∀ E, kepDE E DMc sigma0 sqrta a R0 = E - DMc + s0 - (s0 * cos E + c0 * sin E) := by
    intro E; unfold kepDE; rw [hs0, hc0]; ring
  have hAB : (c0 * sin DMc + s0 * cos DMc) ^ 2 + (c0 * cos DMc - s0 * sin DMc) ^ 2 ≤ 1 := by
    have : (c0 * sin DMc + s0 * cos DMc) ^ 2 + (c0 * cos DMc - s0 * sin DMc) ^ 2
        = (s0 ^ 2 + c0 ^ 2) * (sin DMc ^ 2 + cos DMc ^ 2) := by ring
    rw [this, sin_sq_add_cos_sq]; linarith
  have hs1 : -1 ≤ s0 := by nlinarith [sq_nonneg c0]
  have hs2 : s0 ≤ 1 := by nlinarith [sq_nonneg c0]
  have hu := igI_upper hAB hs1 hs2
  have hl := igI_lower hAB hs1 hs2
  generalize igI (c0 * sin DMc + s0 * cos DMc) (c0 * cos DMc - s0 * sin DMc) s0 = I at *
  have hcont : Continuous fun E => kepDE E DMc sigma0 sqrta a R0 := by
    have : (fun E => kepDE E DMc sigma0 sqrta a R0)
        = fun E => E - DMc + s0 - (s0 * cos E + c0 * sin E) := funext hk
    rw [this]
    fun_prop
  have hpi := pi_pos
  have h1 : kepDE (DMc + I - π) DMc sigma0 sqrta a R0 ≤ 0 := by
    rw [hk, cos_sub_pi, sin_sub_pi, cos_add, sin_add]; linarith
  have h2 : 0 ≤ kepDE (DMc + I + π) DMc sigma0 sqrta a R0 := by
    rw [hk, cos_add_pi, sin_add_pi, cos_add, sin_add]; linarith
  obtain ⟨E, hE, h0⟩ := intermediate_value_Icc (by linarith : DMc + I - π ≤ DMc + I + π) hcont.continuousOn
    (show (0 : ℝ) ∈ Set.Icc _ _ from ⟨h1, h2⟩)
  exact ⟨E, hE.1, hE.2, h0⟩

end Kep3
