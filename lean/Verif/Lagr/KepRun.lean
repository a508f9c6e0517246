import Verif.Lagr.Kep

/-!
# `propagate_keplerian` is the exact motion
-/

namespace Kep3
open Real V3

/-- A true anomaly in `[0, 2 pi)`, other than `pi`, brought into `(-pi, pi)`. -/
theorem wrap_anomaly {f : ℝ} (h1 : 0 ≤ f) (h2 : f < 2 * π) (h3 : f ≠ π) :
    ∃ g, -π < g ∧ g < π ∧ cos g = cos f ∧ sin g = sin f ∧ (∀ e, f2e f e = f2e g e) ∧ ∀ e, f2h f e = f2h g e := by
  by_cases h : f < π
  · exact ⟨f, by linarith [pi_pos], h, rfl, rfl, fun _ => rfl, fun _ => rfl⟩
  · have h : π < f := lt_of_le_of_ne (not_lt.1 h) (Ne.symm h3)
    refine ⟨f - 2 * π, by linarith, by linarith, cos_sub_two_pi f, sin_sub_two_pi f, fun e => ?_, fun e => ?_⟩ <;>
    · have ht : tan? (f / 2) = tan? ((f - 2 * π) / 2) := by
        unfold tan?
        rw [show (f - 2 * π) / 2 = f / 2 - π by ring, cos_sub_pi, tan_sub_pi]
        simp only [neg_eq_zero]
      first
        | (unfold f2e; rw [ht])
        | (unfold f2h; rw [ht])

/-- The elements `ic2par` returns are good, and describe the state. -/
theorem ic2par_full (x : RV ℝ) {mu : ℝ} (hmu : 0 < mu) (hn : (angMom x).x ≠ 0 ∨ (angMom x).y ≠ 0)
    (he : eccVec x mu ≠ 0) (hE : energy x mu ≠ 0) : ∃ q, ic2par x mu = some q ∧ q.Good ∧ parState q mu = x ∧
      q.e = norm (eccVec x mu) ∧ eccVec x mu = q.e • colP q.i q.Om q.om ∧
      cos q.f = dot (eccVec x mu) x.r / (norm (eccVec x mu) * norm x.r) ∧ 0 ≤ q.f ∧ q.f < 2 * π := by
  obtain ⟨q, hq, qe, qa, qP, qQ, qc, qs, -, -, -, -, -, -, f1, f2⟩ := ic2par_spec x hmu hn he hE
  obtain ⟨q', hq', hback, -⟩ := C16_round_trip x hmu hn he hE
  rw [hq] at hq'
  have := Option.some.inj hq'
  subst this
  have hh0 : angMom x ≠ 0 := by
    intro h0; rw [h0] at hn; simp at hn
  have hr0 := r_ne_of_h hh0
  have hR := norm_pos hr0
  have hH := norm_pos hh0
  have hEc : 0 < q.e := by rw [qe]; exact norm_pos he
  have hHs := norm_mul_self (angMom x)
  have hper := eccVec_r (mu := mu) hr0
  have hslr : q.slr = dot (angMom x) (angMom x) / mu := qa
  have hslr0 : 0 < q.slr := by rw [hslr, ← hHs]; positivity
  have hden : norm x.r * (1 + q.e * cos q.f) = q.slr := by
    rw [qc, hslr, dot_smul, V3.dot_comm x.r, hper]; field_simp; ring
  have hden0 : 0 < 1 + q.e * cos q.f := by
    by_contra h
    have := mul_nonpos_of_nonneg_of_nonpos hR.le (not_lt.1 h)
    linarith
  have hgood : q.Good := ⟨hEc.le, by
    have : q.slr = q.a * (1 - q.e) * (1 + q.e) := by unfold Par.slr; ring
    by_contra h
    have := mul_nonpos_of_nonpos_of_nonneg (not_lt.1 h) (by linarith : 0 ≤ 1 + q.e)
    linarith, hden0⟩
  rw [par2ic_run hgood hmu] at hback
  refine ⟨q, hq, hgood, Option.some.inj (Res.ok.inj hback), qe, ?_, ?_, f1, f2⟩
  · rw [qP]; ext <;> simp <;> field_simp
  · rw [qc, dot_smul, V3.dot_comm x.r, ← qe]; field_simp

/-- The state in terms of the eccentric anomaly. -/
theorem parState_ell {q : Par} (hq : q.Good) (h1 : q.e < 1) {b E mu : ℝ} (hb : 0 < b) (hmu : 0 < mu)
    (ha : q.a = 1 / b ^ 2)
    (hc : cos q.f = (cos E - q.e) / (1 - q.e * cos E))
    (hs : sin q.f = √(1 - q.e ^ 2) * sin E / (1 - q.e * cos E)) :
    parState q mu = ellState (colP q.i q.Om q.om) (colQ q.i q.Om q.om) b q.e √(1 - q.e ^ 2) √mu E := by
  have he2 : 0 < 1 - q.e ^ 2 := by nlinarith [hq.e_nonneg]
  have hcc := sqrt_pos.2 he2
  have hc2 := sq_sqrt he2.le
  have hk := sqrt_pos.2 hmu
  have hk2 := sq_sqrt hmu.le
  have hd := one_sub_pos hq.e_nonneg h1 E
  have hden : 1 + q.e * cos q.f = (1 - q.e ^ 2) / (1 - q.e * cos E) := by
    rw [hc]
    obtain ⟨D, hD⟩ : ∃ D, D = 1 - q.e * cos E := ⟨_, rfl⟩
    rw [← hD] at hd ⊢
    field_simp
    rw [hD]; ring
  have hslr : q.slr = (1 - q.e ^ 2) / b ^ 2 := by unfold Par.slr; rw [ha]; ring
  have hrad : q.slr / (1 + q.e * cos q.f) = (1 - q.e * cos E) / b ^ 2 := by
    rw [hslr, hden]
    obtain ⟨D, hD⟩ : ∃ D, D = 1 - q.e * cos E := ⟨_, rfl⟩
    rw [← hD] at hd ⊢
    field_simp
  have hmh : mu / √(q.slr * mu) = √mu * b / √(1 - q.e ^ 2) := by
    rw [hslr, sqrt_mul (by positivity), sqrt_div he2.le, sqrt_sq hb.le]
    field_simp
    rw [hk2]
  unfold parState ellState
  simp only [hrad, hmh]
  simp only [hc, hs]
  generalize √(1 - q.e ^ 2) = c at *
  obtain ⟨D, hD⟩ : ∃ D, D = 1 - q.e * cos E := ⟨_, rfl⟩
  rw [← hD] at hd ⊢
  apply RV.ext
  · refine frame_congr ?_ ?_
    · field_simp
    · field_simp
  · refine frame_congr ?_ ?_
    · field_simp
    · field_simp
      rw [hD]
      linear_combination (-cos E) * hc2

/-- The state in terms of the hyperbolic anomaly. -/
theorem parState_hyp {q : Par} (h1 : 1 < q.e) {b H mu : ℝ} (hb : 0 < b) (hmu : 0 < mu)
    (ha : q.a = -(1 / b ^ 2))
    (hc : cos q.f = (q.e - cosh H) / (q.e * cosh H - 1))
    (hs : sin q.f = √(q.e ^ 2 - 1) * sinh H / (q.e * cosh H - 1)) :
    parState q mu = hypState (colP q.i q.Om q.om) (colQ q.i q.Om q.om) b q.e √(q.e ^ 2 - 1) √mu H := by
  have he2 : 0 < q.e ^ 2 - 1 := by nlinarith
  have hcc := sqrt_pos.2 he2
  have hc2 := sq_sqrt he2.le
  have hk := sqrt_pos.2 hmu
  have hk2 := sq_sqrt hmu.le
  have hd := cosh_sub_pos h1 H
  have hden : 1 + q.e * cos q.f = (q.e ^ 2 - 1) / (q.e * cosh H - 1) := by
    rw [hc]
    obtain ⟨D, hD⟩ : ∃ D, D = q.e * cosh H - 1 := ⟨_, rfl⟩
    rw [← hD] at hd ⊢
    field_simp
    rw [hD]; ring
  have hslr : q.slr = (q.e ^ 2 - 1) / b ^ 2 := by unfold Par.slr; rw [ha]; ring
  have hrad : q.slr / (1 + q.e * cos q.f) = (q.e * cosh H - 1) / b ^ 2 := by
    rw [hslr, hden]
    obtain ⟨D, hD⟩ : ∃ D, D = q.e * cosh H - 1 := ⟨_, rfl⟩
    rw [← hD] at hd ⊢
    field_simp
  have hmh : mu / √(q.slr * mu) = √mu * b / √(q.e ^ 2 - 1) := by
    rw [hslr, sqrt_mul (by positivity), sqrt_div he2.le, sqrt_sq hb.le]
    field_simp
    rw [hk2]
  unfold parState hypState
  simp only [hrad, hmh]
  simp only [hc, hs]
  generalize √(q.e ^ 2 - 1) = c at *
  obtain ⟨D, hD⟩ : ∃ D, D = q.e * cosh H - 1 := ⟨_, rfl⟩
  rw [← hD] at hd ⊢
  apply RV.ext
  · refine frame_congr ?_ ?_
    · field_simp
    · field_simp
  · refine frame_congr ?_ ?_
    · field_simp
    · field_simp
      rw [hD]
      linear_combination (-cosh H) * hc2

/-- Not at the apocentre (trivially true on a hyperbola): the position is not opposite to the eccentricity vector. -/
def NotApocentre (x : RV ℝ) (mu : ℝ) : Prop := dot (eccVec x mu) x.r ≠ -(norm (eccVec x mu) * norm x.r)

/-- `propagate_keplerian` on an ellipse. -/
theorem propagateKeplerian_ellipse (sv : Solver) (hsv : sv.Sound) (x : RV ℝ) {mu : ℝ} (dt : ℝ) (hmu : 0 < mu)
    (hn : (angMom x).x ≠ 0 ∨ (angMom x).y ≠ 0) (he : eccVec x mu ≠ 0) (hE : energy x mu < 0)
    (h0 : NotApocentre x mu) (h1 : NotApocentre (kepFlow x mu dt) mu) :
    (propagateKeplerian sv x dt mu = .err .domainError ∧ ¬ sv.Quick) ∨
      propagateKeplerian sv x dt mu = .ok (some (kepFlow x mu dt)) := by
  have hh0 : angMom x ≠ 0 := by
    intro h0; rw [h0] at hn; simp at hn
  obtain ⟨q, hq, hg, hx, qe, qv, qc, f1, f2⟩ := ic2par_full x hmu hn he hE.ne
  have hEc : 0 < q.e := by rw [qe]; exact norm_pos he
  have hR := norm_pos (r_ne_of_h hh0)
  have hEn := norm_pos he
  -- the eccentricity
  have hlt : q.e < 1 := by
    have hsq := eccVec_sq (mu := mu) (r_ne_of_h hh0) hmu.ne'
    have hEs := norm_mul_self (eccVec x mu)
    rw [← qe] at hEs
    have hhp : 0 < dot (angMom x) (angMom x) := by rw [← norm_sq]; exact pow_pos (norm_pos hh0) 2
    have hneg : 2 * energy x mu * dot (angMom x) (angMom x) / mu ^ 2 < 0 :=
      div_neg_of_neg_of_pos (mul_neg_of_neg_of_pos (by linarith) hhp) (by positivity)
    nlinarith
  have ha : 0 < q.a := by
    have := hg.ae
    by_contra hc
    have := mul_nonpos_of_nonpos_of_nonneg (not_lt.1 hc) (by linarith : 0 ≤ 1 - q.e)
    linarith
  obtain ⟨b, hb, hab⟩ : ∃ b : ℝ, 0 < b ∧ q.a = 1 / b ^ 2 :=
    ⟨1 / √q.a, by positivity, by rw [div_pow, sq_sqrt ha.le]; field_simp⟩
  have hfpi : q.f ≠ π := by
    intro hf
    rw [hf, cos_pi, eq_comm, div_eq_iff (by positivity)] at qc
    exact h0 (by rw [qc]; ring)
  obtain ⟨g, g1, g2, gc, gs, ge, -⟩ := wrap_anomaly f1 f2 hfpi
  obtain ⟨E0, hE0, e01, e02, hback⟩ := (C12_ellipse hg.e_nonneg hlt).2 g g1 g2
  obtain ⟨g', hg', -, -, -, c1, s1⟩ := (C12_ellipse hg.e_nonneg hlt).1 E0 e01 e02
  rw [hback] at hg'
  have := Option.some.inj hg'
  subst this
  rw [gc] at c1
  rw [gs] at s1
  have hx0 := parState_ell hg hlt hb hmu hab c1 s1
  rw [hx] at hx0
  have hP := colP_sq q.i q.Om q.om
  have hQ := colQ_sq q.i q.Om q.om
  have hPQ := colPQ q.i q.Om q.om
  have he2 : 0 < 1 - q.e ^ 2 := by nlinarith
  have hc2 := sq_sqrt he2.le
  have hk := sqrt_pos.2 hmu
  have hα : alphaOf x mu = b ^ 2 := by rw [hx0]; exact ell_alpha hP hQ hPQ hb hg.e_nonneg hlt hc2 hmu E0
  have hnn : √(mu / q.a / q.a / q.a) = √mu * b ^ 3 := by
    rw [hab, ← sqrt_mean hmu hb]; congr 1; field_simp
  have hM0 : f2m q.f q.e = some (E0 - q.e * sin E0) := by
    unfold f2m; rw [if_neg hlt.not_ge, ge, hE0]
    show e2m E0 q.e = _
    unfold e2m; rw [if_neg hlt.not_ge]
  have hflow : ∀ (E1 : ℝ) (k : ℤ), E1 - q.e * sin E1 = E0 - q.e * sin E0 + √mu * b ^ 3 * dt + 2 * π * k →
      kepFlow x mu dt = ellState (colP q.i q.Om q.om) (colQ q.i q.Om q.om) b q.e √(1 - q.e ^ 2) √mu E1 := by
    intro E1 k hE1
    rw [← ell_state hP hQ hPQ hb hg.e_nonneg hlt hc2 hmu E0 E1, ← hx0]
    have ht := ell_time hP hQ hPQ hb hg.e_nonneg hlt hc2 hmu E0 E1
    rw [← hx0, hE1] at ht
    obtain ⟨p1, p2⟩ := timeU_period_int hmu hh0 hb hα ((E1 - E0) / b) (-k)
    rw [← p2]
    refine kepFlow_of_time hmu hh0 ?_
    rw [p1, ht]
    push_cast
    field_simp
    ring
  unfold propagateKeplerian
  rw [hq]
  dsimp only
  unfold kepAnomaly
  rw [if_pos ha, hM0]
  dsimp only
  rw [hnn]
  unfold m2f
  rw [if_neg hlt.not_ge]
  rcases C14_m2e sv hsv hg.e_nonneg hlt (E0 - q.e * sin E0 + √mu * b ^ 3 * dt) with h | ⟨E1, h, m1, m2, ⟨k, hk1⟩, -⟩
  · left
    refine ⟨by rw [h]; rfl, fun hquick => (C14_error_only_from_solver sv hquick _ _ .domainError).1 h⟩
  · right
    rw [h]
    have hf := hflow E1 k hk1
    have hEpi : E1 ≠ π := by
      rintro rfl
      apply h1
      have hecc : eccVec (kepFlow x mu dt) mu = eccVec x mu := eccVec_stateU hmu hh0 _
      rw [hecc, hf, ell_norm hP hQ hPQ hb hg.e_nonneg hlt hc2 hmu, ← qe, qv]
      unfold ellState
      rw [dot_add, dot_smul, dot_smul, smul_dot, smul_dot, hP, hPQ, cos_pi, sin_pi]
      field_simp
      ring
    obtain ⟨f', hf', -, -, -, c', s'⟩ := (C12_ellipse hg.e_nonneg hlt).1 E1 m1 (lt_of_le_of_ne m2 hEpi)
    show (match e2f E1 q.e with
      | none => Res.ok none
      | some f => par2ic { q with f := f } mu) = _
    rw [hf']
    have hg2 : ({ q with f := f' } : Par).Good := ⟨hg.e_nonneg, hg.ae, by
      have := neg_one_le_cos f'
      show 0 < 1 + q.e * cos f'
      nlinarith⟩
    show par2ic { q with f := f' } mu = _
    rw [par2ic_run hg2 hmu, parState_ell hg2 hlt hb hmu hab c' s', hf]

/-- The size of the final hyperbolic mean anomaly that the bracket of `n2h` covers for sure. -/
def HypRangeK (x : RV ℝ) (mu dt : ℝ) : Prop :=
  |sigmaOf x mu| * √(-alphaOf x mu) ≤ 10 ^ 9 ∧ √mu * |dt| * √(-alphaOf x mu) ^ 3 ≤ 10 ^ 9

theorem n2h_range {e N : ℝ} (he : 1 < e) (h : |N| ≤ 10 ^ 10) :
    e * sinh (1 - 20 * π) - (1 - 20 * π) ≤ N ∧ N ≤ e * sinh (1 + 20 * π) - (1 + 20 * π) := by
  have hpi := pi_gt_three
  have hpi4 := pi_lt_four
  have h24 : (10 : ℝ) ^ 10 + 50 ≤ 2 * sinh (49 / 2) := by
    have h1 : (27 / 10 : ℝ) ^ 24 ≤ rexp 24 := by
      have : rexp 24 = rexp 1 ^ 24 := by rw [← exp_nat_mul]; norm_num
      rw [this]
      exact pow_le_pow_left₀ (by norm_num) (by linarith [exp_one_gt_d9]) 24
    have h2 : rexp 24 ≤ rexp (49 / 2) := exp_le_exp.2 (by norm_num)
    have h3 : rexp (-(49 / 2)) ≤ 1 := exp_le_one_iff.2 (by norm_num)
    rw [sinh_eq]
    have : (10 : ℝ) ^ 10 + 51 ≤ (27 / 10 : ℝ) ^ 24 := by norm_num
    linarith
  -- `sinh 59 >= 2 sinh (49/2) cosh (49/2)`
  have hbig : (10 : ℝ) ^ 10 + 90 ≤ sinh 59 := by
    have e1 : sinh (49 : ℝ) = 2 * sinh (49 / 2) * cosh (49 / 2) := by
      rw [show (49 : ℝ) = 2 * (49 / 2) by norm_num, sinh_two_mul]; norm_num
    have e2 : sinh (49 : ℝ) ≤ sinh 59 := sinh_le_sinh.2 (by norm_num)
    have e3 : sinh (49 / 2 : ℝ) ≤ cosh (49 / 2) := (sinh_lt_cosh _).le
    nlinarith
  have e1 : sinh 59 ≤ sinh (20 * π - 1) := sinh_le_sinh.2 (by linarith)
  have e2 : sinh 59 ≤ sinh (20 * π + 1) := sinh_le_sinh.2 (by linarith)
  have n1 : sinh (1 - 20 * π) = -sinh (20 * π - 1) := by rw [← sinh_neg]; congr 1; ring
  obtain ⟨a1, a2⟩ := abs_le.1 h
  rw [n1, show 1 + 20 * π = 20 * π + 1 by ring]
  constructor <;> nlinarith

/-- `propagate_keplerian` on a hyperbola. -/
theorem propagateKeplerian_hyperbola (sv : Solver) (hsv : sv.Sound) (x : RV ℝ) {mu : ℝ} (dt : ℝ) (hmu : 0 < mu)
    (hn : (angMom x).x ≠ 0 ∨ (angMom x).y ≠ 0) (hE : 0 < energy x mu) (hr : HypRangeK x mu dt) :
    (propagateKeplerian sv x dt mu = .err .domainError ∧ ¬ sv.Quick) ∨
      propagateKeplerian sv x dt mu = .ok (some (kepFlow x mu dt)) := by
  have hh0 : angMom x ≠ 0 := by
    intro h0; rw [h0] at hn; simp at hn
  have hsq := eccVec_sq (mu := mu) (r_ne_of_h hh0) hmu.ne'
  have hhp : 0 < dot (angMom x) (angMom x) := by rw [← norm_sq]; exact pow_pos (norm_pos hh0) 2
  have hpos : 0 < 2 * energy x mu * dot (angMom x) (angMom x) / mu ^ 2 := by positivity
  have he : eccVec x mu ≠ 0 := by
    intro h0
    rw [← dot_self_eq_zero] at h0
    linarith
  obtain ⟨q, hq, hg, hx, qe, qv, qc, f1, f2⟩ := ic2par_full x hmu hn he hE.ne'
  have hEn := norm_pos he
  have hlt : 1 < q.e := by
    have hEs := norm_mul_self (eccVec x mu)
    rw [← qe] at hEs hEn
    nlinarith
  have ha : q.a < 0 := by
    have := hg.ae
    by_contra hc
    have := mul_nonpos_of_nonneg_of_nonpos (not_lt.1 hc) (by linarith : 1 - q.e ≤ 0)
    linarith
  have ha' : 0 < -q.a := by linarith
  obtain ⟨b, hb, hab⟩ : ∃ b : ℝ, 0 < b ∧ q.a = -(1 / b ^ 2) :=
    ⟨1 / √(-q.a), by positivity, by rw [div_pow, sq_sqrt ha'.le]; field_simp⟩
  have hfpi : q.f ≠ π := by
    intro hf
    have := hg.den
    rw [hf, cos_pi] at this
    linarith
  obtain ⟨g, g1, g2, gc, gs, -, ge⟩ := wrap_anomaly f1 f2 hfpi
  have hin : ∀ {f : ℝ}, 0 < 1 + q.e * cos f ↔ -1 / q.e < cos f := by
    intro f
    rw [div_lt_iff₀ (by linarith)]
    constructor <;> intro h <;> linarith
  obtain ⟨H0, hH0, hback⟩ := (C12_hyperbola hlt).2.1 g g1 g2 (by rw [← hin, gc]; exact hg.den)
  obtain ⟨g', hg', -, -, -, -, c1, s1⟩ := (C12_hyperbola hlt).1 H0
  rw [hback] at hg'
  have := Option.some.inj hg'
  subst this
  rw [gc] at c1
  rw [gs] at s1
  have hx0 := parState_hyp hlt hb hmu hab c1 s1
  rw [hx] at hx0
  have hP := colP_sq q.i q.Om q.om
  have hQ := colQ_sq q.i q.Om q.om
  have hPQ := colPQ q.i q.Om q.om
  have he2 : 0 < q.e ^ 2 - 1 := by nlinarith
  have hc2 := sq_sqrt he2.le
  have hk := sqrt_pos.2 hmu
  have hα : alphaOf x mu = -b ^ 2 := by rw [hx0]; exact hyp_alpha hP hQ hPQ hb hlt hc2 hmu H0
  have hσ : sigmaOf x mu = q.e * sinh H0 / b := by rw [hx0]; exact hyp_sigma hP hQ hPQ hb hlt hc2 hmu H0
  have hnn : √(-mu / q.a / q.a / q.a) = √mu * b ^ 3 := by
    rw [hab, ← sqrt_mean_neg hmu hb]
  have hM0 : f2n q.f q.e = some (q.e * sinh H0 - H0) := by
    unfold f2n; rw [if_neg hlt.not_ge, ge, hH0]
    show h2n H0 q.e = _
    unfold h2n; rw [if_neg hlt.not_ge]
  have hflow : ∀ H1 : ℝ, q.e * sinh H1 - H1 = q.e * sinh H0 - H0 + √mu * b ^ 3 * dt →
      kepFlow x mu dt = hypState (colP q.i q.Om q.om) (colQ q.i q.Om q.om) b q.e √(q.e ^ 2 - 1) √mu H1 := by
    intro H1 hH1
    rw [← hyp_state hP hQ hPQ hb hlt hc2 hmu H0 H1, ← hx0]
    have ht := hyp_time hP hQ hPQ hb hlt hc2 hmu H0 H1
    rw [← hx0, hH1] at ht
    refine kepFlow_of_time hmu hh0 ?_
    rw [ht]
    field_simp
    ring
  have hrange : |q.e * sinh H0 - H0 + √mu * b ^ 3 * dt| ≤ 10 ^ 10 := by
    obtain ⟨r1, r2⟩ := hr
    rw [hα, neg_neg, sqrt_sq hb.le] at r1 r2
    rw [hσ, abs_div, abs_of_pos hb, div_mul_cancel₀ _ hb.ne'] at r1
    have hsh : |H0| ≤ |q.e * sinh H0| := by
      rw [abs_mul, abs_of_pos (by linarith : 0 < q.e)]
      have h1 : |H0| ≤ |sinh H0| := by
        rw [abs_sinh]
        exact self_le_sinh_iff.2 (abs_nonneg _)
      nlinarith [abs_nonneg (sinh H0)]
    have h2 : |√mu * b ^ 3 * dt| ≤ 10 ^ 9 := by
      rw [abs_mul, abs_of_pos (by positivity : 0 < √mu * b ^ 3)]
      calc √mu * b ^ 3 * |dt| = √mu * |dt| * b ^ 3 := by ring
        _ ≤ _ := r2
    have h3 := abs_le.1 h2
    have h4 := abs_le.1 r1
    have h5 := abs_le.1 (hsh.trans r1)
    rw [abs_le]
    constructor <;> linarith
  obtain ⟨b1, b2⟩ := n2h_range hlt hrange
  unfold propagateKeplerian
  rw [hq]
  dsimp only
  unfold kepAnomaly
  rw [if_neg ha.not_gt, hM0]
  dsimp only
  rw [hnn]
  unfold n2f
  rw [if_neg hlt.not_ge]
  rcases C14_n2h sv hsv hlt (q.e * sinh H0 - H0 + √mu * b ^ 3 * dt) b1 b2 with h | ⟨H1, h, hu⟩
  · left
    refine ⟨by rw [h]; rfl, fun hquick => (C14_error_only_from_solver sv hquick _ _ .domainError).2.2.1 h⟩
  · right
    rw [h]
    have hf := hflow H1 ((hu H1).2 rfl)
    obtain ⟨f', hf', -, -, hin', -, c', s'⟩ := (C12_hyperbola hlt).1 H1
    show (match h2f H1 q.e with
      | none => Res.ok none
      | some f => par2ic { q with f := f } mu) = _
    rw [hf']
    have hg2 : ({ q with f := f' } : Par).Good := ⟨hg.e_nonneg, hg.ae, hin.2 hin'⟩
    show par2ic { q with f := f' } mu = _
    rw [par2ic_run hg2 hmu, parState_hyp (q := { q with f := f' }) hlt hb hmu hab c' s', hf]

end Kep3
