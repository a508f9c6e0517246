import Verif.Lambert.Tof
import Mathlib.Analysis.SpecialFunctions.Trigonometric.InverseDeriv

/-!
# The derivatives of the time of flight
-/

namespace Kep3
open Real V3

namespace Lambert

/-- The three derivatives in terms of the time of flight, as in the code. -/
noncomputable def d1 (l x T : ℝ) : ℝ := (3 * x * T - 2 + 2 * l ^ 3 * x / yOf l x) / (1 - x ^ 2)
noncomputable def d2 (l x T : ℝ) : ℝ := (3 * T + 5 * x * d1 l x T + 2 * (1 - l ^ 2) * l ^ 3 / yOf l x ^ 3) / (1 - x ^ 2)
noncomputable def d3 (l x T : ℝ) : ℝ :=
  (7 * x * d2 l x T + 8 * d1 l x T - 6 * (1 - l ^ 2) * l ^ 5 * x / yOf l x ^ 5) / (1 - x ^ 2)

section
variable {l : ℝ} (hl : l ^ 2 < 1)
include hl

theorem dTdx_eq {x : ℝ} (hx : 1 - x ^ 2 ≠ 0) (T : ℝ) : dTdx l x T = some (d1 l x T, d2 l x T, d3 l x T) := by
  have hy := yOf_pos hl x
  have hx' : 1 - x * x ≠ 0 := by rw [← pow_two]; exact hx
  have e : sqrt? (1 - l * l * (1 - x * x)) = some (yOf l x) := by
    rw [show 1 - l * l * (1 - x * x) = 1 - l ^ 2 + l ^ 2 * x ^ 2 by ring, sqrt?_ok (yOf_arg hl x).le]; rfl
  unfold dTdx
  simp only
  rw [e]
  simp only [Option.bind_eq_bind, Option.bind_some]
  rw [div?_ok hx']
  simp only [Option.bind_some, div?_ok hy.ne', div?_ok (show yOf l x * yOf l x * yOf l x ≠ 0 by positivity),
    div?_ok (show yOf l x * yOf l x ≠ 0 by positivity), Option.pure_def]
  have h1 : 1 / (1 - x * x) * (3 * T * x - 2 + 2 * (l * l * l) * x / yOf l x) = d1 l x T := by
    unfold d1; rw [pow_two]; ring
  rw [h1]
  have h2 : 1 / (1 - x * x) * (3 * T + 5 * x * d1 l x T + 2 * (1 - l * l) * (l * l * l) / (yOf l x * yOf l x * yOf l x))
      = d2 l x T := by
    unfold d2; rw [show yOf l x ^ 3 = yOf l x * yOf l x * yOf l x by ring]; ring
  rw [h2]
  congr 3
  unfold d3
  rw [show yOf l x ^ 5 = yOf l x * yOf l x * yOf l x * (yOf l x * yOf l x) by ring]
  field_simp

theorem hasDerivAt_yOf (x : ℝ) : HasDerivAt (yOf l) (l ^ 2 * x / yOf l x) x := by
  have h := (((hasDerivAt_pow 2 x).const_mul (l ^ 2)).const_add (1 - l ^ 2)).sqrt (yOf_arg hl x).ne'
  refine h.congr_deriv ?_
  unfold yOf
  have := (sqrt_pos.2 (yOf_arg hl x)).ne'
  field_simp
  simp

/-- A function that satisfies the first-order equation has the second derivative of the code. -/
theorem hasDerivAt_d1 {T : ℝ → ℝ} {x : ℝ} (hx : 1 - x ^ 2 ≠ 0) (hT : HasDerivAt T (d1 l x (T x)) x) :
    HasDerivAt (fun x => d1 l x (T x)) (d2 l x (T x)) x := by
  have hy := (yOf_pos hl x).ne'
  have hysq := yOf_sq hl x
  have hn := ((((hasDerivAt_id x).const_mul 3).mul hT).sub_const 2).add
    (((hasDerivAt_id x).const_mul (2 * l ^ 3)).div (hasDerivAt_yOf hl x) hy)
  have hd := ((hasDerivAt_pow 2 x).const_sub 1)
  have h := hn.div hd hx
  refine h.congr_deriv ?_
  simp only [id, mul_one, Nat.cast_ofNat, Nat.add_one_sub_one, pow_one]
  have e1 : (3 * x * T x - 2 + 2 * l ^ 3 * x / yOf l x) = d1 l x (T x) * (1 - x ^ 2) := by
    unfold d1; field_simp
  have e2 : (2 * l ^ 3 * yOf l x - 2 * l ^ 3 * x * (l ^ 2 * x / yOf l x)) / yOf l x ^ 2
      = 2 * (1 - l ^ 2) * l ^ 3 / yOf l x ^ 3 := by
    field_simp
    linear_combination l ^ 3 * hysq
  have e3 : (3 * T x + 3 * x * d1 l x (T x) + (2 * l ^ 3 * yOf l x - 2 * l ^ 3 * x * (l ^ 2 * x / yOf l x)) / yOf l x ^ 2)
      * (1 - x ^ 2) - (3 * x * T x - 2 + 2 * l ^ 3 * x / yOf l x) * -(2 * x)
      = (3 * T x + 5 * x * d1 l x (T x) + 2 * (1 - l ^ 2) * l ^ 3 / yOf l x ^ 3) * (1 - x ^ 2) := by
    rw [e2, e1]; ring
  simp only [Pi.add_apply, Pi.sub_apply, Pi.mul_apply, Pi.div_apply]
  unfold d2
  rw [div_eq_div_iff (pow_ne_zero 2 hx) hx]
  linear_combination (1 - x ^ 2) * e3

theorem hasDerivAt_d2 {T : ℝ → ℝ} {x : ℝ} (hx : 1 - x ^ 2 ≠ 0) (hT : HasDerivAt T (d1 l x (T x)) x) :
    HasDerivAt (fun x => d2 l x (T x)) (d3 l x (T x)) x := by
  have hy := (yOf_pos hl x).ne'
  have hysq := yOf_sq hl x
  have hn := ((hT.const_mul 3).add (((hasDerivAt_id x).const_mul 5).mul (hasDerivAt_d1 hl hx hT))).add
    ((hasDerivAt_const x (2 * (1 - l ^ 2) * l ^ 3)).div ((hasDerivAt_yOf hl x).pow 3) (pow_ne_zero 3 hy))
  have hd := ((hasDerivAt_pow 2 x).const_sub 1)
  have h := hn.div hd hx
  refine h.congr_deriv ?_
  simp only [id, mul_one, Nat.cast_ofNat, Nat.add_one_sub_one, pow_one, Pi.add_apply, Pi.sub_apply, Pi.mul_apply,
    Pi.div_apply, Pi.pow_apply]
  have e1 : (3 * T x + 5 * x * d1 l x (T x) + 2 * (1 - l ^ 2) * l ^ 3 / yOf l x ^ 3) = d2 l x (T x) * (1 - x ^ 2) := by
    unfold d2; field_simp
  have e2 : (0 * yOf l x ^ 3 - 2 * (1 - l ^ 2) * l ^ 3 * (3 * yOf l x ^ 2 * (l ^ 2 * x / yOf l x))) / (yOf l x ^ 3) ^ 2
      = -(6 * (1 - l ^ 2) * l ^ 5 * x / yOf l x ^ 5) := by
    field_simp
    ring
  rw [e1, e2]
  unfold d3
  rw [div_eq_div_iff (pow_ne_zero 2 hx) hx]
  ring

/-- The first derivative on ellipses. -/
theorem hasDerivAt_tofE {x : ℝ} (h1 : -1 < x) (h2 : x < 1) (N : ℕ) :
    HasDerivAt (fun x => tofE l x N) (d1 l x (tofE l x N)) x := by
  have hw : 0 < 1 - x ^ 2 := by nlinarith
  have hW := (sqrt_pos.2 hw).ne'
  have hW2 := sq_sqrt hw.le
  have hy := (yOf_pos hl x).ne'
  have hysq := yOf_sq hl x
  have hd := ((hasDerivAt_pow 2 x).const_sub 1)
  have hsq := hd.sqrt hw.ne'
  have hlt := lw_lt hl h1 h2
  have hab := abs_lt.1 ((sq_lt_one_iff_abs_lt_one _).1 hlt)
  have hB := (hasDerivAt_arcsin hab.1.ne' hab.2.ne).comp x (hsq.const_mul l)
  have hA := (hasDerivAt_arccos h1.ne' h2.ne)
  have hcB : √(1 - (l * √(1 - x ^ 2)) ^ 2) = yOf l x := by
    rw [mul_pow, hW2]; unfold yOf; congr 1; ring
  have h := (((((hA.sub hB).add_const (N * π)).div hsq hW).sub (hasDerivAt_id x)).add
    ((hasDerivAt_yOf hl x).const_mul l)).div hd hw.ne'
  refine h.congr_deriv ?_
  simp only [id, mul_one, Nat.cast_ofNat, Nat.add_one_sub_one, pow_one, Pi.add_apply, Pi.sub_apply, Pi.mul_apply,
    Pi.div_apply, Pi.pow_apply, Function.comp]
  rw [hcB]
  unfold d1 tofE angE
  generalize arccos x = A
  generalize arcsin (l * √(1 - x ^ 2)) = B
  obtain ⟨W, hWd⟩ : ∃ W, √(1 - x ^ 2) = W := ⟨_, rfl⟩
  rw [hWd] at hW hW2 ⊢
  rw [← hW2]
  generalize yOf l x = y at *
  field_simp
  linear_combination W * y * hW2 - l * x * W * hysq - l ^ 3 * x * W * hW2

/-- The first derivative on hyperbolas. -/
theorem hasDerivAt_tofH {x : ℝ} (h2 : 1 < x) : HasDerivAt (tofH l) (d1 l x (tofH l x)) x := by
  have hw : 0 < x ^ 2 - 1 := by nlinarith
  have hW := (sqrt_pos.2 hw).ne'
  have hW2 := sq_sqrt hw.le
  have hy := (yOf_pos hl x).ne'
  have hysq := yOf_sq hl x
  have hd := ((hasDerivAt_pow 2 x).sub_const 1)
  have hsq := hd.sqrt hw.ne'
  have hB := (hasDerivAt_arsinh (l * √(x ^ 2 - 1))).comp x (hsq.const_mul l)
  have hA := hasDerivAt_arcosh (Set.mem_Ioi.2 h2)
  have hcB : √(1 + (l * √(x ^ 2 - 1)) ^ 2) = yOf l x := by
    rw [mul_pow, hW2]; unfold yOf; congr 1; ring
  have h := (((hasDerivAt_id x).sub ((hasDerivAt_yOf hl x).const_mul l)).sub ((hA.sub hB).div hsq hW)).div hd hw.ne'
  refine h.congr_deriv ?_
  simp only [id, Nat.cast_ofNat, Nat.add_one_sub_one, pow_one, Pi.sub_apply, Pi.div_apply, Function.comp]
  rw [hcB]
  unfold d1 tofH angH
  generalize arcosh x = A
  generalize arsinh (l * √(x ^ 2 - 1)) = B
  obtain ⟨W, hWd⟩ : ∃ W, √(x ^ 2 - 1) = W := ⟨_, rfl⟩
  rw [hWd] at hW hW2 ⊢
  rw [show 1 - x ^ 2 = -(x ^ 2 - 1) by ring, ← hW2]
  generalize yOf l x = y at *
  field_simp
  linear_combination -(W * y) * hW2 - l * x * W * hysq + l ^ 3 * x * W * hW2

end

/-! ## The time without revolutions decreases -/

theorem hE_strictMono : StrictMono fun t : ℝ => t - sin t * cos t := by
  have hd : ∀ t : ℝ, HasDerivAt (fun t : ℝ => t - sin t * cos t) (2 * sin t ^ 2) t := fun t => by
    have h := (hasDerivAt_id t).sub ((hasDerivAt_sin t).mul (hasDerivAt_cos t))
    refine h.congr_deriv ?_
    have := sin_sq_add_cos_sq t
    linear_combination -this
  have hm : Monotone fun t : ℝ => t - sin t * cos t :=
    monotone_of_deriv_nonneg (fun t => (hd t).differentiableAt) (fun t => by rw [(hd t).deriv]; positivity)
  intro a b hab
  refine lt_of_le_of_ne (hm hab.le) fun he => ?_
  simp only at he
  have hs : |sin a * cos a - sin b * cos b| < b - a := by
    have e : sin a * cos a - sin b * cos b = (sin (2 * a) - sin (2 * b)) / 2 := by
      rw [sin_two_mul, sin_two_mul]; ring
    rw [e, sin_sub_sin, show (2 * a - 2 * b) / 2 = a - b by ring,
      show 2 * sin (a - b) * cos ((2 * a + 2 * b) / 2) / 2 = sin (a - b) * cos ((2 * a + 2 * b) / 2) by ring, abs_mul]
    have h1 : |sin (a - b)| < |a - b| := by
      have hne : a - b ≠ 0 := by linarith
      exact abs_sin_lt_abs hne
    have h2 := abs_cos_le_one ((2 * a + 2 * b) / 2)
    rw [show |a - b| = b - a by rw [abs_of_neg (by linarith)]; ring] at h1
    calc _ ≤ |sin (a - b)| * 1 := by gcongr
      _ < b - a := by rw [mul_one]; exact h1
  have := (abs_lt.1 hs).1
  linarith

/-- A positive derivative, except at one point. -/
theorem lt_of_deriv {f f' : ℝ → ℝ} {A B : ℝ} (h : B < A) (hd : ∀ t ∈ Set.Icc B A, HasDerivAt f (f' t) t)
    (hp : ∀ t ∈ Set.Ioo B A, t ≠ 0 → 0 < f' t) : f B < f A := by
  have key : ∀ b a, b < a → B ≤ b → a ≤ A → (∀ t ∈ Set.Ioo b a, t ≠ 0) → f b < f a := by
    intro b a hab hb ha hn
    refine strictMonoOn_of_deriv_pos (convex_Icc b a)
      (fun t ht => (hd t ⟨hb.trans ht.1, ht.2.trans ha⟩).continuousAt.continuousWithinAt) ?_
      ⟨le_refl b, hab.le⟩ ⟨hab.le, le_refl a⟩ hab
    intro t ht
    rw [interior_Icc] at ht
    rw [(hd t ⟨hb.trans ht.1.le, ht.2.le.trans ha⟩).deriv]
    exact hp t ⟨hb.trans_lt ht.1, ht.2.trans_le ha⟩ (hn t ht)
  by_cases h0 : B < 0 ∧ 0 < A
  · exact (key B 0 h0.1 le_rfl h0.2.le (fun t ht => ht.2.ne)).trans (key 0 A h0.2 h0.1.le le_rfl (fun t ht => ht.1.ne'))
  · refine key B A h le_rfl le_rfl fun t ht h' => h0 ?_
    rw [h'] at ht
    exact ht

/-- The function of the anomalies whose growth makes the time of flight decrease. -/
theorem mE_lt {A B : ℝ} (hA : A < π / 2) (hB : -(π / 2) < B) (h : B < A) :
    2 * sin B ^ 3 / cos B - 3 * (B - sin B * cos B) < 2 * sin A ^ 3 / cos A - 3 * (A - sin A * cos A) := by
  have hc : ∀ t ∈ Set.Icc B A, 0 < cos t := fun t ht => cos_pos_of_mem_Ioo ⟨hB.trans_le ht.1, ht.2.trans_lt hA⟩
  refine lt_of_deriv (f := fun t => 2 * sin t ^ 3 / cos t - 3 * (t - sin t * cos t))
    (f' := fun t => 2 * sin t ^ 4 / cos t ^ 2) h ?_ ?_
  · intro t ht
    have hct := (hc t ht).ne'
    have h := ((((hasDerivAt_sin t).pow 3).const_mul 2).div (hasDerivAt_cos t) hct).sub
      (((hasDerivAt_id t).sub ((hasDerivAt_sin t).mul (hasDerivAt_cos t))).const_mul 3)
    refine h.congr_deriv ?_
    have := sin_sq_add_cos_sq t
    simp only [Pi.pow_apply]
    field_simp
    push_cast
    have e : cos t ^ 2 = 1 - sin t ^ 2 := by linarith
    have e4 : cos t ^ 4 = (1 - sin t ^ 2) ^ 2 := by rw [← e]; ring
    ring_nf
    rw [e4, e]
    ring
  · intro t ht h0
    have hct := hc t ⟨ht.1.le, ht.2.le⟩
    have hs : sin t ≠ 0 := by
      have hpi := pi_pos
      intro hs
      rcases lt_or_gt_of_ne h0 with h' | h'
      · have := sin_neg_of_neg_of_neg_pi_lt h' (by linarith [ht.1]); linarith
      · have := sin_pos_of_pos_of_lt_pi h' (by linarith [ht.2]); linarith
    have : 0 < sin t ^ 4 := by positivity
    positivity

theorem mH_lt {A B : ℝ} (h : B < A) :
    3 * (sinh B * cosh B - B) - 2 * sinh B ^ 3 / cosh B < 3 * (sinh A * cosh A - A) - 2 * sinh A ^ 3 / cosh A := by
  refine lt_of_deriv (f := fun t => 3 * (sinh t * cosh t - t) - 2 * sinh t ^ 3 / cosh t)
    (f' := fun t => 2 * sinh t ^ 4 / cosh t ^ 2) h ?_ ?_
  · intro t ht
    have hct := (cosh_pos t).ne'
    have h := ((((hasDerivAt_sinh t).mul (hasDerivAt_cosh t)).sub (hasDerivAt_id t)).const_mul 3).sub
      ((((hasDerivAt_sinh t).pow 3).const_mul 2).div (hasDerivAt_cosh t) hct)
    refine h.congr_deriv ?_
    simp only [Pi.pow_apply]
    field_simp
    push_cast
    have e : cosh t ^ 2 = sinh t ^ 2 + 1 := cosh_sq t
    have e4 : cosh t ^ 4 = (sinh t ^ 2 + 1) ^ 2 := by rw [← e]; ring
    ring_nf
    rw [e4, e]
    ring
  · intro t ht h0
    have hs : sinh t ≠ 0 := by rwa [Ne, sinh_eq_zero]
    have : 0 < sinh t ^ 4 := by positivity
    have := cosh_pos t
    positivity

section
variable {l : ℝ} (hl : l ^ 2 < 1)
include hl

theorem B_facts {x : ℝ} (h1 : -1 < x) (h2 : x < 1) :
    cos (arcsin (l * √(1 - x ^ 2))) = yOf l x ∧ sin (arcsin (l * √(1 - x ^ 2))) = l * √(1 - x ^ 2) ∧
      -(π / 2) < arcsin (l * √(1 - x ^ 2)) := by
  have hw : 0 < 1 - x ^ 2 := by nlinarith
  have hab := abs_lt.1 ((sq_lt_one_iff_abs_lt_one _).1 (lw_lt hl h1 h2))
  refine ⟨?_, sin_arcsin hab.1.le hab.2.le, ?_⟩
  · rw [cos_arcsin, mul_pow, sq_sqrt hw.le]; unfold yOf; congr 1; ring
  · refine lt_of_le_of_ne (neg_pi_div_two_le_arcsin _) (fun h => ?_)
    have := arcsin_eq_neg_pi_div_two.1 h.symm
    linarith

/-- The time of flight as a difference of two terms of one form. -/
theorem tofE_diff {x : ℝ} (h1 : -1 < x) (h2 : x < 1) (N : ℕ) :
    tofE l x N * √(1 - x ^ 2) ^ 3 = (arccos x - sin (arccos x) * cos (arccos x))
      - (arcsin (l * √(1 - x ^ 2)) - sin (arcsin (l * √(1 - x ^ 2))) * cos (arcsin (l * √(1 - x ^ 2)))) + N * π := by
  have hw : 0 < 1 - x ^ 2 := by nlinarith
  obtain ⟨b1, b2, -⟩ := B_facts hl h1 h2
  rw [b1, b2, sin_arccos, cos_arccos h1.le h2.le]
  unfold tofE angE
  have hW := (sqrt_pos.2 hw).ne'
  have hW2 := sq_sqrt hw.le
  obtain ⟨W, hWd⟩ : ∃ W, √(1 - x ^ 2) = W := ⟨_, rfl⟩
  rw [hWd] at hW hW2 ⊢
  rw [← hW2]
  field_simp
  ring

theorem tofE_pos {x : ℝ} (h1 : -1 < x) (h2 : x < 1) (N : ℕ) : 0 < tofE l x N := by
  have hw : 0 < 1 - x ^ 2 := by nlinarith
  have h := tofE_diff hl h1 h2 N
  have hlt : arcsin (l * √(1 - x ^ 2)) < arccos x := by
    have := (angE_facts hl h1 h2).2.2.1
    unfold angE at this; linarith
  have hm := hE_strictMono hlt
  simp only at hm
  have hN : 0 ≤ (N : ℝ) * π := by have := pi_pos; positivity
  have : 0 < tofE l x N * √(1 - x ^ 2) ^ 3 := by rw [h]; linarith
  exact pos_of_mul_pos_left this (by positivity)

theorem d1_tofE_neg {x : ℝ} (h1 : -1 < x) (h2 : x < 1) : d1 l x (tofE l x 0) < 0 := by
  have hw : 0 < 1 - x ^ 2 := by nlinarith
  have hy := yOf_pos hl x
  unfold d1
  apply div_neg_of_neg_of_pos _ hw
  rcases le_or_gt x 0 with hx | hx
  · have hT := tofE_pos hl h1 h2 0
    have h3 : x * tofE l x 0 ≤ 0 := mul_nonpos_of_nonpos_of_nonneg hx hT.le
    have h4 : l ^ 3 * x / yOf l x < 1 := by
      rw [div_lt_one hy]
      have h5 := (abs_lt.1 (yOf_abs hl x))
      have h6 : l ^ 3 * x = l ^ 2 * (l * x) := by ring
      rw [h6]
      have := sq_nonneg l
      rcases le_or_gt (l * x) 0 with h | h
      · have := mul_nonpos_of_nonneg_of_nonpos (sq_nonneg l) h; linarith
      · nlinarith
    have h7 : 2 * l ^ 3 * x / yOf l x = 2 * (l ^ 3 * x / yOf l x) := by ring
    rw [h7]
    linarith
  · have h := tofE_diff hl h1 h2 0
    obtain ⟨b1, b2, b3⟩ := B_facts hl h1 h2
    have hlt : arcsin (l * √(1 - x ^ 2)) < arccos x := by
      have := (angE_facts hl h1 h2).2.2.1
      unfold angE at this; linarith
    have hm := mE_lt (arccos_lt_pi_div_two.2 hx) b3 hlt
    have hW := sqrt_pos.2 hw
    rw [b1, b2, sin_arccos, cos_arccos h1.le h2.le] at hm h
    generalize √(1 - x ^ 2) = W at *
    generalize arcsin (l * W) = B at *
    generalize arccos x = A at *
    generalize yOf l x = y at *
    generalize tofE l x 0 = T at *
    have e : W ^ 3 * (3 * x * T - 2 + 2 * l ^ 3 * x / y)
        = x * ((2 * (l * W) ^ 3 / y - 3 * (B - l * W * y)) - (2 * W ^ 3 / x - 3 * (A - W * x))) := by
      push_cast at h
      field_simp
      linear_combination 3 * x * y * h
    have h8 : W ^ 3 * (3 * x * T - 2 + 2 * l ^ 3 * x / y) < 0 := by
      rw [e]; exact mul_neg_of_pos_of_neg hx (by linarith)
    by_contra hc
    have := mul_nonneg (pow_pos hW 3).le (not_lt.1 hc)
    linarith

theorem tofH_diff {x : ℝ} (h2 : 1 < x) :
    tofH l x * √(x ^ 2 - 1) ^ 3 = (sinh (arcosh x) * cosh (arcosh x) - arcosh x)
      - (sinh (arsinh (l * √(x ^ 2 - 1))) * cosh (arsinh (l * √(x ^ 2 - 1))) - arsinh (l * √(x ^ 2 - 1))) := by
  have hw : 0 < x ^ 2 - 1 := by nlinarith
  have hW := (sqrt_pos.2 hw).ne'
  have hW2 := sq_sqrt hw.le
  have hcB : cosh (arsinh (l * √(x ^ 2 - 1))) = yOf l x := by
    rw [cosh_arsinh, mul_pow, hW2]; unfold yOf; congr 1; ring
  rw [hcB, sinh_arsinh, sinh_arcosh h2.le, cosh_arcosh h2.le]
  unfold tofH angH
  obtain ⟨W, hWd⟩ : ∃ W, √(x ^ 2 - 1) = W := ⟨_, rfl⟩
  rw [hWd] at hW hW2 ⊢
  rw [← hW2]
  field_simp
  ring

theorem d1_tofH_neg {x : ℝ} (h2 : 1 < x) : d1 l x (tofH l x) < 0 := by
  have hw : 0 < x ^ 2 - 1 := by nlinarith
  have hy := yOf_pos hl x
  have h := tofH_diff hl h2
  have hlt : arsinh (l * √(x ^ 2 - 1)) < arcosh x := by
    have := angH_pos hl h2
    unfold angH at this; linarith
  have hm := mH_lt hlt
  have hW := sqrt_pos.2 hw
  have hcB : cosh (arsinh (l * √(x ^ 2 - 1))) = yOf l x := by
    rw [cosh_arsinh, mul_pow, sq_sqrt hw.le]; unfold yOf; congr 1; ring
  unfold d1
  apply div_neg_of_pos_of_neg _ (by linarith)
  rw [hcB, sinh_arsinh, sinh_arcosh h2.le, cosh_arcosh h2.le] at hm h
  generalize √(x ^ 2 - 1) = W at *
  generalize arsinh (l * W) = B at *
  generalize arcosh x = A at *
  generalize yOf l x = y at *
  generalize tofH l x = T at *
  have hx : 0 < x := by linarith
  have e : W ^ 3 * (3 * x * T - 2 + 2 * l ^ 3 * x / y)
      = x * ((3 * (W * x - A) - 2 * W ^ 3 / x) - (3 * (l * W * y - B) - 2 * (l * W) ^ 3 / y)) := by
    field_simp
    linear_combination 3 * x * y * h
  have h8 : 0 < W ^ 3 * (3 * x * T - 2 + 2 * l ^ 3 * x / y) := by
    rw [e]; exact mul_pos hx (by linarith)
  exact pos_of_mul_pos_right h8 (pow_pos hW 3).le
end

end Lambert
end Kep3
