import Verif.Lagr.Run
import Verif.Lagr.Unique

/-!
# What `propagate_lagrangian_u` computes
-/

namespace Kep3
open Real V3

theorem U2_even (α s : ℝ) : U2 α (-s) = U2 α s := by unfold U2; simp
theorem U3_odd (α s : ℝ) : U3 α (-s) = -U3 α s := by unfold U3; simp
theorem U1_odd (α s : ℝ) : U1 α (-s) = -U1 α s := by unfold U1; rw [U3_odd]; ring
theorem U0_even (α s : ℝ) : U0 α (-s) = U0 α s := by unfold U0; rw [U2_even]

/-- The same position with the velocity reversed. -/
def RV.rev (x : RV ℝ) : RV ℝ := ⟨x.r, -x.v⟩

@[simp] theorem rev_rev (x : RV ℝ) : x.rev.rev = x := by
  unfold RV.rev; apply RV.ext <;> ext <;> simp

theorem angMom_rev (x : RV ℝ) : angMom x.rev = -angMom x := by
  unfold angMom RV.rev; ext <;> simp <;> ring

theorem angMom_rev_ne {x : RV ℝ} (h : angMom x ≠ 0) : angMom x.rev ≠ 0 := by
  intro h0
  apply h
  rw [angMom_rev] at h0
  have h1 := congrArg V3.x h0
  have h2 := congrArg V3.y h0
  have h3 := congrArg V3.z h0
  simp at h1 h2 h3
  ext <;> simpa

theorem alphaOf_rev (x : RV ℝ) (mu : ℝ) : alphaOf x.rev mu = alphaOf x mu := by
  unfold alphaOf RV.rev; simp [dot]
theorem sigmaOf_rev (x : RV ℝ) (mu : ℝ) : sigmaOf x.rev mu = -sigmaOf x mu := by
  unfold sigmaOf RV.rev; simp [dot]; ring

theorem timeU_rev (x : RV ℝ) (mu s : ℝ) : timeU x.rev mu s = -timeU x mu (-s) := by
  unfold timeU
  rw [alphaOf_rev, sigmaOf_rev, U1_odd, U2_even, U3_odd]
  show (norm x.r * _ + _ + _) / _ = _
  ring

theorem radU_rev (x : RV ℝ) (mu s : ℝ) : radU x.rev mu s = radU x mu (-s) := by
  unfold radU
  rw [alphaOf_rev, sigmaOf_rev, U0_even, U1_odd, U2_even]
  show norm x.r * _ + _ + _ = _
  ring

theorem stateU_rev (x : RV ℝ) (mu s : ℝ) : stateU x.rev mu s = (stateU x mu (-s)).rev := by
  have hF : FU x.rev mu s = FU x mu (-s) := by unfold FU; rw [alphaOf_rev, U2_even]; rfl
  have hG : GU x.rev mu s = -GU x mu (-s) := by
    unfold GU; rw [alphaOf_rev, sigmaOf_rev, U1_odd, U2_even]
    show (norm x.r * _ + _) / _ = _
    ring
  have hFt : FtU x.rev mu s = -FtU x mu (-s) := by
    unfold FtU; rw [alphaOf_rev, radU_rev, U1_odd]
    show _ / (_ * norm x.r) = _
    ring
  have hGt : GtU x.rev mu s = GtU x mu (-s) := by unfold GtU; rw [alphaOf_rev, radU_rev, U2_even]
  unfold stateU
  rw [hF, hG, hFt, hGt]
  unfold RV.rev
  apply RV.ext <;> ext <;> simp <;> ring

theorem anomU_rev {x : RV ℝ} {mu : ℝ} (hmu : 0 < mu) (hh : angMom x ≠ 0) (t : ℝ) :
    anomU x.rev mu (-t) = -anomU x mu t := by
  refine anomU_eq hmu (angMom_rev_ne hh) ?_
  rw [timeU_rev, neg_neg, timeU_anomU hmu hh]

/-- Running the reversed motion. -/
theorem kepFlow_rev {x : RV ℝ} {mu : ℝ} (hmu : 0 < mu) (hh : angMom x ≠ 0) (t : ℝ) :
    kepFlow x.rev mu (-t) = (kepFlow x mu t).rev := by
  unfold kepFlow
  rw [anomU_rev hmu hh, stateU_rev, neg_neg]

theorem id_sub_sin_strictMono : StrictMono fun x : ℝ => x - sin x := by
  intro x y h
  have h1 : sin y - sin x = 2 * sin ((y - x) / 2) * cos ((y + x) / 2) := sin_sub_sin y x
  have h2 : sin ((y - x) / 2) < (y - x) / 2 := sin_lt (by linarith)
  have h3 : -((y - x) / 2) < sin ((y - x) / 2) := by
    have hp : 0 < (y - x) / 2 := by linarith
    rcases le_or_gt ((y - x) / 2) π with h4 | h4
    · linarith [sin_nonneg_of_nonneg_of_le_pi hp.le h4]
    · linarith [neg_one_le_sin ((y - x) / 2), pi_gt_three]
  have h4 := abs_cos_le_one ((y + x) / 2)
  have h5 : |sin ((y - x) / 2) * cos ((y + x) / 2)| < (y - x) / 2 := by
    rw [abs_mul]
    have := abs_lt.2 ⟨h3, h2⟩
    nlinarith [abs_nonneg (sin ((y - x) / 2))]
  have := (abs_lt.1 h5).2
  show x - sin x < y - sin y
  linarith

theorem U3_strictMono (α : ℝ) : StrictMono (U3 α) := by
  intro x y h
  rcases alpha_cases α with ⟨b, hb, rfl⟩ | rfl | ⟨b, hb, rfl⟩
  · rw [U3_pos hb, U3_pos hb]
    have := id_sub_sin_strictMono (mul_lt_mul_of_pos_left h hb)
    exact div_lt_div_of_pos_right this (by positivity)
  · rw [U3_zero, U3_zero]
    have : x ^ 3 < y ^ 3 := (Odd.strictMono_pow (by decide)) h
    linarith
  · rw [U3_neg hb, U3_neg hb]
    have := sinh_sub_id_strictMono (mul_lt_mul_of_pos_left h hb)
    exact div_lt_div_of_pos_right this (by positivity)

section
variable {x : RV ℝ} {mu : ℝ} (hmu : 0 < mu) (hh : angMom x ≠ 0)
include hmu hh

theorem kepDS_time (s dt : ℝ) : kepDS s dt (norm x.r) (dot x.r x.v / norm x.r) (alphaOf x mu) mu
    = √mu * (timeU x mu s - dt) := by
  have hR := (norm_pos (r_ne_of_h hh)).ne'
  have hk := (sqrt_pos.2 hmu).ne'
  unfold kepDS timeU sigmaOf
  rw [show U1 (alphaOf x mu) s = s - alphaOf x mu * U3 (alphaOf x mu) s from rfl]
  unfold U2 U3
  field_simp
  ring

/-- At a solution of the time equation the assembled state is the one at that universal anomaly. -/
theorem uState_run {s dt : ℝ} (ht : timeU x mu s = dt) :
    uState x.r x.v (norm x.r) (alphaOf x mu) mu dt s = some (stateU x mu s) := by
  have hR := (norm_pos (r_ne_of_h hh)).ne'
  have hk := (sqrt_pos.2 hmu).ne'
  have hr := radU_ne hmu hh s
  have hF : 1 - s * s / norm x.r * stumpffC (alphaOf x mu * s * s) = FU x mu s := by
    unfold FU U2; ring
  have hG : dt - 1 / √mu * s * s * s * stumpffS (alphaOf x mu * s * s) = GU x mu s := by
    rw [← ht]; unfold timeU GU U3; field_simp; ring
  have hrf : (⟨FU x mu s * x.r.x + GU x mu s * x.v.x, FU x mu s * x.r.y + GU x mu s * x.v.y,
      FU x mu s * x.r.z + GU x mu s * x.v.z⟩ : V3 ℝ) = (stateU x mu s).r := rfl
  unfold uState
  simp only [hF, hG]
  have hRF : √((FU x mu s * x.r.x + GU x mu s * x.v.x) * (FU x mu s * x.r.x + GU x mu s * x.v.x)
      + (FU x mu s * x.r.y + GU x mu s * x.v.y) * (FU x mu s * x.r.y + GU x mu s * x.v.y)
      + (FU x mu s * x.r.z + GU x mu s * x.v.z) * (FU x mu s * x.r.z + GU x mu s * x.v.z)) = radU x mu s :=
    norm_stateU hmu hh s
  simp only [hRF, div?_ok hr, Option.bind_eq_bind, Option.bind_some]
  have hFt : √mu / radU x mu s / norm x.r
      * (alphaOf x mu * s * s * stumpffS (alphaOf x mu * s * s) - 1) * s = FtU x mu s := by
    unfold FtU U1 U3; field_simp; ring
  have hGt : 1 - s * s / radU x mu s * stumpffC (alphaOf x mu * s * s) = GtU x mu s := by
    unfold GtU U2; ring
  rw [hFt, hGt]
  rfl

/-- The assembled state is the exact one only at the solution of the time equation. -/
theorem uState_only {s dt : ℝ} (h : uState x.r x.v (norm x.r) (alphaOf x mu) mu dt s = some (kepFlow x mu dt)) :
    s = anomU x mu dt := by
  have hk := sqrt_pos.2 hmu
  have hT := timeU_anomU hmu hh dt
  unfold uState at h
  simp only [Option.bind_eq_bind, Option.bind_eq_some_iff] at h
  obtain ⟨q1, -, q2, -, h⟩ := h
  have h := Option.some.inj h
  have hr := congrArg RV.r h
  -- the coefficient of the velocity
  have hpos : (kepFlow x mu dt).r = FU x mu (anomU x mu dt) • x.r + GU x mu (anomU x mu dt) • x.v := rfl
  rw [hpos] at hr
  generalize 1 - s * s / norm x.r * stumpffC (alphaOf x mu * s * s) = F at hr
  have hG' : dt - 1 / √mu * s * s * s * stumpffS (alphaOf x mu * s * s) = GU x mu (anomU x mu dt) := by
    generalize dt - 1 / √mu * s * s * s * stumpffS (alphaOf x mu * s * s) = G at hr
    have h1 := congrArg V3.x hr
    have h2 := congrArg V3.y hr
    have h3 := congrArg V3.z hr
    simp only [add_x, add_y, add_z, smul_x, smul_y, smul_z] at h1 h2 h3
    by_contra hne
    have hne := sub_ne_zero.2 hne
    apply hh
    unfold angMom
    ext <;> simp only [cross_x, cross_y, cross_z, zero_x, zero_y, zero_z]
    · refine mul_left_cancel₀ hne ?_
      linear_combination x.r.y * h3 - x.r.z * h2
    · refine mul_left_cancel₀ hne ?_
      linear_combination x.r.z * h1 - x.r.x * h3
    · refine mul_left_cancel₀ hne ?_
      linear_combination x.r.x * h2 - x.r.y * h1
  apply (U3_strictMono (alphaOf x mu)).injective
  have hG2 : GU x mu (anomU x mu dt) = dt - U3 (alphaOf x mu) (anomU x mu dt) / √mu := by
    nth_rewrite 2 [← hT]; unfold GU timeU; ring
  rw [hG2] at hG'
  have : U3 (alphaOf x mu) s / √mu = U3 (alphaOf x mu) (anomU x mu dt) / √mu := by
    unfold U3 at hG' ⊢
    field_simp at hG' ⊢
    linarith
  field_simp at this
  exact this

end

/-- The centre of the bracket handed to the root finder. -/
noncomputable def igU (x : RV ℝ) (mu dt : ℝ) : ℝ :=
  if 0 < alphaOf x mu then √mu * |dt| * alphaOf x mu else 3

/-- The universal anomaly difference is within `2 pi` (in units of the square root of a length) of the initial guess. -/
def UReach (x : RV ℝ) (mu dt : ℝ) : Prop := |(|anomU x mu dt|) - igU x mu dt| ≤ 2 * π

theorem anomU_nonneg {x : RV ℝ} {mu : ℝ} (hmu : 0 < mu) (hh : angMom x ≠ 0) {t : ℝ} (ht : 0 ≤ t) :
    0 ≤ anomU x mu t := by
  rw [← (timeU_strictMono hmu hh).le_iff_le, timeU_zero hmu hh, timeU_anomU hmu hh]; exact ht

/-- The call for a non-negative time. -/
theorem propU_nonneg (sv : Solver) {x : RV ℝ} {mu : ℝ} (hmu : 0 < mu) (hh : angMom x ≠ 0) {dt : ℝ} (hdt : 0 ≤ dt) :
    propagateLagrangianU sv x dt mu =
      (let s := sv (fun DS => (kepDS DS dt (norm x.r) (dot x.r x.v / norm x.r) (alphaOf x mu) mu,
          d_kepDS DS (norm x.r) (dot x.r x.v / norm x.r) (alphaOf x mu) mu)) (igU x mu dt) (igU x mu dt - 2 * π)
          (igU x mu dt + 2 * π)
       if s.2 = 100 then .err .domainError
       else .ok (uState x.r x.v (norm x.r) (alphaOf x mu) mu dt s.1)) := by
  have hR := (norm_pos (r_ne_of_h hh)).ne'
  unfold propagateLagrangianU
  simp only [if_neg hdt.not_gt]
  have hIG : (if 0 < alphaOf x mu then √mu * dt * |alphaOf x mu| else 3) = igU x mu dt := by
    unfold igU
    split
    · next h => rw [abs_of_pos h, abs_of_nonneg hdt]
    · rfl
  show (if mu ≤ 0 ∨ norm x.r = 0 then _ else
    let IG := if 0 < alphaOf x mu then √mu * dt * |alphaOf x mu| else 3
    let s := sv (fun DS => (kepDS DS dt (norm x.r) (dot x.r x.v / norm x.r) (alphaOf x mu) mu,
      d_kepDS DS (norm x.r) (dot x.r x.v / norm x.r) (alphaOf x mu) mu)) IG (IG - 2 * π) (IG + 2 * π)
    if s.2 = 100 then Res.err .domainError else
      Res.ok (Option.map (fun y => y) (uState x.r x.v (norm x.r) (alphaOf x mu) mu dt s.1))) = _
  rw [if_neg (by simp [hmu, hR]), hIG]
  simp only [Option.map_id']

/-- The call for a negative time is the call for the reversed motion, with the velocity reversed at the end. -/
theorem propU_neg (sv : Solver) (x : RV ℝ) {mu dt : ℝ} (hdt : dt < 0) :
    propagateLagrangianU sv x dt mu = (propagateLagrangianU sv x.rev (-dt) mu).bind fun y => .ok (y.map RV.rev) := by
  unfold propagateLagrangianU RV.rev
  simp only [if_pos hdt, if_neg (show ¬ -dt < 0 by linarith)]
  split
  · rfl
  · generalize hs : sv _ _ _ _ = s
    split
    · rfl
    · show _ = Res.ok _
      rw [Option.map_id']

/-- The call for a non-negative time, when the solution is inside the bracket. -/
theorem propU_run_nonneg (sv : Solver) (hsv : sv.Sound) {x : RV ℝ} {mu : ℝ} (hmu : 0 < mu) (hh : angMom x ≠ 0)
    {dt : ℝ} (hdt : 0 ≤ dt) (hr : |anomU x mu dt - igU x mu dt| ≤ 2 * π) :
    (propagateLagrangianU sv x dt mu = .err .domainError ∧ ¬ sv.Quick)
      ∨ propagateLagrangianU sv x dt mu = .ok (some (kepFlow x mu dt)) := by
  rw [propU_nonneg sv hmu hh hdt]
  have hk := (sqrt_pos.2 hmu).ne'
  have hp := pi_pos
  obtain ⟨hr1, hr2⟩ := abs_le.1 hr
  have hs := hsv (fun DS => (kepDS DS dt (norm x.r) (dot x.r x.v / norm x.r) (alphaOf x mu) mu,
    d_kepDS DS (norm x.r) (dot x.r x.v / norm x.r) (alphaOf x mu) mu)) (igU x mu dt) (igU x mu dt - 2 * π)
    (igU x mu dt + 2 * π) (by linarith) (by linarith)
    ⟨anomU x mu dt, by linarith, by linarith, by
      show kepDS _ _ _ _ _ _ = 0
      rw [kepDS_time hmu hh, timeU_anomU hmu hh]; ring⟩
  dsimp only
  split
  · next h => exact Or.inl ⟨rfl, fun hq => hq _ _ _ _ h⟩
  · next h =>
    right
    have h0 := (hs h).2.2
    generalize (sv _ _ _ _).1 = s at h0 ⊢
    have h0 : kepDS s dt (norm x.r) (dot x.r x.v / norm x.r) (alphaOf x mu) mu = 0 := h0
    rw [kepDS_time hmu hh] at h0
    have ht : timeU x mu s = dt := by
      have := (mul_eq_zero.1 h0).resolve_left hk; linarith
    rw [uState_run hmu hh ht, kepFlow_of_time hmu hh ht]

/-- The root finder answers inside the bracket it was given. -/
def Solver.Inside (sv : Solver) : Prop := ∀ f g lo hi, lo ≤ hi → lo ≤ (sv f g lo hi).1 ∧ (sv f g lo hi).1 ≤ hi

theorem idealSolver_inside : idealSolver.Inside := by
  intro f g lo hi h
  unfold idealSolver
  split
  · next h1 => exact ⟨h1.choose_spec.1, h1.choose_spec.2.1⟩
  · exact ⟨le_refl _, h⟩

/-- The call for a non-negative time, when the solution is outside the bracket. -/
theorem propU_miss_nonneg (sv : Solver) (hsv : sv.Inside) {x : RV ℝ} {mu : ℝ} (hmu : 0 < mu) (hh : angMom x ≠ 0)
    {dt : ℝ} (hdt : 0 ≤ dt) (hr : 2 * π < |anomU x mu dt - igU x mu dt|) :
    propagateLagrangianU sv x dt mu ≠ .ok (some (kepFlow x mu dt)) := by
  rw [propU_nonneg sv hmu hh hdt]
  have hs := hsv (fun DS => (kepDS DS dt (norm x.r) (dot x.r x.v / norm x.r) (alphaOf x mu) mu,
    d_kepDS DS (norm x.r) (dot x.r x.v / norm x.r) (alphaOf x mu) mu)) (igU x mu dt) (igU x mu dt - 2 * π)
    (igU x mu dt + 2 * π) (by linarith [pi_pos])
  dsimp only
  split
  · exact fun h => nomatch h
  · intro h
    have h := uState_only hmu hh (Res.ok.inj h)
    rw [h] at hs
    exact absurd (abs_le.2 ⟨by linarith, by linarith⟩) hr.not_ge

theorem igU_rev (x : RV ℝ) (mu dt : ℝ) : igU x.rev mu (-dt) = igU x mu dt := by
  unfold igU; rw [alphaOf_rev, abs_neg]

theorem rev_inj {x y : RV ℝ} (h : x.rev = y.rev) : x = y := by rw [← rev_rev x, h, rev_rev]

theorem anomU_abs_neg {x : RV ℝ} {mu : ℝ} (hmu : 0 < mu) (hh : angMom x ≠ 0) {dt : ℝ} (hdt : dt < 0) :
    |anomU x mu dt| = anomU x.rev mu (-dt) := by
  have h := anomU_nonneg hmu (angMom_rev_ne hh) (t := -dt) (by linarith)
  rw [anomU_rev hmu hh] at h ⊢
  exact abs_of_nonpos (by linarith)

/-- **The universal variable propagator computes the exact flow exactly when the solution is inside its bracket.** -/
theorem propU_run (sv : Solver) (hsv : sv.Sound) {x : RV ℝ} {mu : ℝ} (hmu : 0 < mu) (hh : angMom x ≠ 0)
    {dt : ℝ} (hr : UReach x mu dt) :
    (propagateLagrangianU sv x dt mu = .err .domainError ∧ ¬ sv.Quick)
      ∨ propagateLagrangianU sv x dt mu = .ok (some (kepFlow x mu dt)) := by
  unfold UReach at hr
  rcases lt_or_ge dt 0 with h | h
  · rw [anomU_abs_neg hmu hh h, ← igU_rev] at hr
    rw [propU_neg sv x h]
    rcases propU_run_nonneg sv hsv hmu (angMom_rev_ne hh) (dt := -dt) (by linarith) hr with ⟨h1, h2⟩ | h1
    · left; rw [h1]; exact ⟨rfl, h2⟩
    · right; rw [h1, kepFlow_rev hmu hh]
      show Res.ok (some _) = _
      rw [rev_rev]
  · rw [abs_of_nonneg (anomU_nonneg hmu hh h)] at hr
    exact propU_run_nonneg sv hsv hmu hh h hr

theorem propU_miss (sv : Solver) (hsv : sv.Inside) {x : RV ℝ} {mu : ℝ} (hmu : 0 < mu) (hh : angMom x ≠ 0)
    {dt : ℝ} (hr : ¬ UReach x mu dt) :
    propagateLagrangianU sv x dt mu ≠ .ok (some (kepFlow x mu dt)) := by
  unfold UReach at hr
  rw [not_le] at hr
  rcases lt_or_ge dt 0 with h | h
  · rw [anomU_abs_neg hmu hh h, ← igU_rev] at hr
    rw [propU_neg sv x h]
    have h1 := propU_miss_nonneg sv hsv hmu (angMom_rev_ne hh) (dt := -dt) (by linarith) hr
    rw [kepFlow_rev hmu hh] at h1
    intro h2
    apply h1
    generalize propagateLagrangianU sv x.rev (-dt) mu = q at h2 ⊢
    rcases q with q | e | _
    · have h3 : Option.map RV.rev q = some (kepFlow x mu dt) := Res.ok.inj h2
      obtain ⟨y, hy, h4⟩ := Option.map_eq_some_iff.1 h3
      rw [hy, ← h4, rev_rev]
    · exact nomatch h2
    · exact nomatch h2
  · rw [abs_of_nonneg (anomU_nonneg hmu hh h)] at hr
    exact propU_miss_nonneg sv hsv hmu hh h hr

/-- On an ellipse the solution differs from the guess by at most twice the eccentricity times `sqrt a`. -/
theorem ellipse_gap {x : RV ℝ} {mu : ℝ} (hmu : 0 < mu) (hh : angMom x ≠ 0) {b : ℝ} (hb : 0 < b)
    (hα : alphaOf x mu = b ^ 2) (s : ℝ) :
    s - √mu * timeU x mu s * alphaOf x mu
      = ((1 - b ^ 2 * norm x.r) * sin (b * s) - b * sigmaOf x mu * (1 - cos (b * s))) / b := by
  have hk := (sqrt_pos.2 hmu).ne'
  unfold timeU
  rw [hα, U1_pos hb, U2_pos hb, U3_pos hb]
  field_simp
  ring

theorem ecc_sq_eq {x : RV ℝ} {mu : ℝ} (hmu : 0 < mu) (hh : angMom x ≠ 0) {b : ℝ}
    (hα : alphaOf x mu = b ^ 2) :
    norm (eccVec x mu) ^ 2 = (1 - b ^ 2 * norm x.r) ^ 2 + (b * sigmaOf x mu) ^ 2 := by
  have h1 := eccVec_sq (r_ne_of_h hh) hmu.ne'
  have h2 := hsq_eq hmu hh
  rw [sq, norm_mul_self]
  rw [h1, h2, energy_alpha hmu hh, hα]
  have hk : √mu ^ 2 = mu := sq_sqrt hmu.le
  rw [hk]
  field_simp
  ring

/-- Small ellipses (`e sqrt a <= pi` in the units used) are always inside the bracket. -/
theorem uReach_ellipse {x : RV ℝ} {mu : ℝ} (hmu : 0 < mu) (hh : angMom x ≠ 0) (hα : 0 < alphaOf x mu)
    (he : norm (eccVec x mu) ≤ π * √(alphaOf x mu)) (dt : ℝ) : UReach x mu dt := by
  -- for times of either sign
  have key : ∀ (y : RV ℝ), angMom y ≠ 0 → 0 < alphaOf y mu → norm (eccVec y mu) ≤ π * √(alphaOf y mu) → ∀ t, 0 ≤ t →
      |anomU y mu t - igU y mu t| ≤ 2 * π := by
    intro y hy ha hey t ht
    have hb := sqrt_pos.2 ha
    have hα : alphaOf y mu = √(alphaOf y mu) ^ 2 := (sq_sqrt ha.le).symm
    have hg := ellipse_gap hmu hy hb hα (anomU y mu t)
    have hq := ecc_sq_eq hmu hy hα
    unfold igU
    rw [if_pos ha, abs_of_nonneg ht]
    rw [timeU_anomU hmu hy] at hg
    rw [hg]
    generalize √(alphaOf y mu) = b at *
    have hc : |1 - b ^ 2 * norm y.r| ≤ norm (eccVec y mu) :=
      abs_le_of_sq_le_sq (by nlinarith [sq_nonneg (b * sigmaOf y mu)]) (norm_nonneg _)
    have hs : |b * sigmaOf y mu| ≤ norm (eccVec y mu) :=
      abs_le_of_sq_le_sq (by nlinarith [sq_nonneg (1 - b ^ 2 * norm y.r)]) (norm_nonneg _)
    generalize norm (eccVec y mu) = e at *
    generalize 1 - b ^ 2 * norm y.r = c at *
    generalize b * sigmaOf y mu = d at *
    generalize b * anomU y mu t = ψ at *
    rw [abs_div, abs_of_pos hb, div_le_iff₀ hb]
    have h2 : (c * sin ψ - d * (1 - cos ψ)) ^ 2 ≤ (2 * e) ^ 2 := by
      -- Cauchy-Schwarz, with  sin² + (1-cos)² = 2 (1-cos) <= 4
      have h3 : (c * sin ψ - d * (1 - cos ψ)) ^ 2 ≤ (c ^ 2 + d ^ 2) * (sin ψ ^ 2 + (1 - cos ψ) ^ 2) := by
        nlinarith [sq_nonneg (c * (1 - cos ψ) + d * sin ψ)]
      have h4 : sin ψ ^ 2 + (1 - cos ψ) ^ 2 ≤ 4 := by nlinarith [sin_sq_add_cos_sq ψ, neg_one_le_cos ψ]
      have h5 : 0 ≤ c ^ 2 + d ^ 2 := by positivity
      nlinarith
    have he0 : 0 ≤ e := le_trans (abs_nonneg _) hc
    have h3 := abs_le_of_sq_le_sq h2 (by linarith)
    linarith
  unfold UReach
  rcases lt_or_ge dt 0 with h | h
  · rw [anomU_abs_neg hmu hh h, ← igU_rev]
    refine key _ (angMom_rev_ne hh) (by rw [alphaOf_rev]; exact hα) ?_ _ (by linarith)
    rw [alphaOf_rev]
    have : eccVec x.rev mu = eccVec x mu := by
      unfold eccVec RV.rev; ext <;> simp [cross, hmu.ne'] <;> ring
    rw [this]; exact he
  · rw [abs_of_nonneg (anomU_nonneg hmu hh h)]
    exact key _ hh hα he _ h

end Kep3
