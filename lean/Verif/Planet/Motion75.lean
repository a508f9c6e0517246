import Verif.Planet.Props36
import Verif.Planet.Props34

/-!
# Elements along the motion

What `elements` returns at an epoch, against what `eph` returns at the same epoch (include/kep3/planet.hpp:160-214,
src/udpla/keplerian.cpp:97-104, 141-167).
-/

namespace Kep3
open Real V3

/-! ## The first five elements only depend on the constants of the motion -/

theorem angle_unique {a b : ℝ} (a0 : 0 ≤ a) (a1 : a < 2 * π) (b0 : 0 ≤ b) (b1 : b < 2 * π) (hc : cos a = cos b)
    (hs : sin a = sin b) : a = b := by
  have h : cos (a - b) = 1 := by
    rw [cos_sub, hc, hs]; nlinarith [sin_sq_add_cos_sq b]
  obtain ⟨n, hn⟩ := (cos_eq_one_iff _).1 h
  have hpi := pi_pos
  have n0 : (-1 : ℝ) < n := by
    by_contra hc
    have := mul_le_mul_of_nonneg_right (not_lt.1 hc) (by linarith : 0 ≤ 2 * π)
    linarith
  have n1 : (n : ℝ) < 1 := by
    by_contra hc
    have := mul_le_mul_of_nonneg_right (not_lt.1 hc) (by linarith : 0 ≤ 2 * π)
    linarith
  have n0' : -1 < n := by exact_mod_cast n0
  have n1' : n < 1 := by exact_mod_cast n1
  have : n = 0 := by omega
  subst this
  simp at hn
  linarith

/-- The angles are determined by the frame of the orbit. -/
theorem frame_unique {i j Om Om' om om' : ℝ} (hP : colP i Om om = colP j Om' om') (hQ : colQ i Om om = colQ j Om' om')
    (hi : sin i ≠ 0) (i0 : 0 ≤ i) (i1 : i ≤ π) (j0 : 0 ≤ j) (j1 : j ≤ π) (a0 : 0 ≤ Om) (a1 : Om < 2 * π)
    (b0 : 0 ≤ Om') (b1 : Om' < 2 * π) (c0 : 0 ≤ om) (c1 : om < 2 * π) (d0 : 0 ≤ om') (d1 : om' < 2 * π) :
    i = j ∧ Om = Om' ∧ om = om' := by
  have hW : colW i Om = colW j Om' := by rw [← cross_colPQ i Om om, ← cross_colPQ j Om' om', hP, hQ]
  have w1 : sin Om * sin i = sin Om' * sin j := congrArg V3.x hW
  have w2 : -cos Om * sin i = -cos Om' * sin j := congrArg V3.y hW
  have w3 : cos i = cos j := congrArg V3.z hW
  have hij : i = j := injOn_cos ⟨i0, i1⟩ ⟨j0, j1⟩ w3
  subst hij
  have p : sin om * sin i = sin om' * sin i := congrArg V3.z hP
  have q : cos om * sin i = cos om' * sin i := congrArg V3.z hQ
  exact ⟨rfl, angle_unique a0 a1 b0 b1 (mul_right_cancel₀ hi (by linarith)) (mul_right_cancel₀ hi w1),
    angle_unique c0 c1 d0 d1 (mul_right_cancel₀ hi q) (mul_right_cancel₀ hi p)⟩

/-- Two states with the same angular momentum, eccentricity vector and energy have the same first five elements. -/
theorem ic2par_five {x y : RV ℝ} {mu : ℝ} (hmu : 0 < mu) (hn : (angMom x).x ≠ 0 ∨ (angMom x).y ≠ 0)
    (he : eccVec x mu ≠ 0) (hE : energy x mu ≠ 0) (h1 : angMom y = angMom x) (h2 : eccVec y mu = eccVec x mu)
    (h3 : energy y mu = energy x mu) : ∃ q q', ic2par x mu = some q ∧ ic2par y mu = some q' ∧
      q'.a = q.a ∧ q'.e = q.e ∧ q'.i = q.i ∧ q'.Om = q.Om ∧ q'.om = q.om := by
  obtain ⟨q, hq, qe, qa, qP, qQ, -, -, i0, i1, a0, a1, c0, c1, -, -⟩ := ic2par_spec x hmu hn he hE
  obtain ⟨q', hq', qe', qa', qP', qQ', -, -, j0, j1, b0, b1, d0, d1, -, -⟩ := ic2par_spec y hmu (by rw [h1]; exact hn)
    (by rw [h2]; exact he) (by rw [h3]; exact hE)
  have hee : q'.e = q.e := by rw [qe', qe, h2]
  rw [h2, hee, ← qP] at qP'
  rw [h1, h2, hee, ← qQ] at qQ'
  rw [h1, hee, ← qa] at qa'
  have hne : 1 - q.e * q.e ≠ 0 := by
    intro h0
    rw [h0, mul_zero] at qa
    have hh0 : angMom x ≠ 0 := by
      intro h0; rw [h0] at hn; simp at hn
    have : 0 < dot (angMom x) (angMom x) / mu := by
      rw [← norm_mul_self]; have := norm_pos hh0; positivity
    linarith
  have hsi : sin q'.i ≠ 0 := by
    intro h0
    have hH : norm (angMom x) ≠ 0 := by
      refine (norm_pos fun h0 => ?_).ne'
      rw [h0] at hn; simp at hn
    -- the normal of the plane is the direction of the angular momentum
    have hW : colW q.i q.Om = (1 / norm (angMom x)) • angMom x := by
      rw [← cross_colPQ q.i q.Om q.om, qP, qQ]
      have hper := eccVec_perp (x := x) (mu := mu)
      have hen : dot ((1 / q.e) • eccVec x mu) ((1 / q.e) • eccVec x mu) = 1 := by rw [← qP]; exact colP_sq _ _ _
      have hpp : dot ((1 / q.e) • eccVec x mu) ((1 / norm (angMom x)) • angMom x) = 0 := by
        rw [smul_dot, dot_smul, hper]; ring
      generalize (1 / q.e) • eccVec x mu = u at *
      generalize (1 / norm (angMom x)) • angMom x = w at *
      simp only [V3.dot] at hen hpp
      ext <;> simp
      · linear_combination w.x * hen - u.x * hpp
      · linear_combination w.y * hen - u.y * hpp
      · linear_combination w.z * hen - u.z * hpp
    have hci : cos q'.i = cos q.i := by
      have h : colW q'.i q'.Om = colW q.i q.Om := by
        rw [← cross_colPQ q'.i q'.Om q'.om, ← cross_colPQ q.i q.Om q.om, qP', qQ']
      exact congrArg V3.z h
    have hij : q'.i = q.i := injOn_cos ⟨j0, j1⟩ ⟨i0, i1⟩ hci
    rw [hij] at h0
    have wx : sin q.Om * sin q.i = 1 / norm (angMom x) * (angMom x).x := congrArg V3.x hW
    have wy : -cos q.Om * sin q.i = 1 / norm (angMom x) * (angMom x).y := congrArg V3.y hW
    rw [h0, mul_zero, eq_comm] at wx wy
    have hk : 1 / norm (angMom x) ≠ 0 := one_div_ne_zero hH
    rcases hn with h | h
    · exact h ((mul_eq_zero.1 wx).resolve_left hk)
    · exact h ((mul_eq_zero.1 wy).resolve_left hk)
  obtain ⟨e1, e2, e3⟩ := frame_unique qP' qQ' hsi j0 j1 i0 i1 b0 b1 a0 a1 d0 d1 c0 c1
  exact ⟨q, q', hq, hq', mul_right_cancel₀ hne qa', hee, e1, e2, e3⟩

/-- **C75**: along every solution of the two-body problem `ic2par` returns the same semi-major axis, eccentricity,
inclination, node and argument of the pericentre at all times. -/
theorem C75_constants {mu : ℝ} (hmu : 0 < mu) {γ : ℝ → RV ℝ} (hγ : TwoBody mu γ)
    (hn : (cross (γ 0).r (γ 0).v).x ≠ 0 ∨ (cross (γ 0).r (γ 0).v).y ≠ 0) (he : eccVec (γ 0) mu ≠ 0)
    (hE : energy (γ 0) mu ≠ 0) : ∃ a e i Om om, ∀ t, ∃ f, ic2par (γ t) mu = some ⟨a, e, i, Om, om, f⟩ := by
  have hh : angMom (γ 0) ≠ 0 := by
    intro h0
    change (angMom (γ 0)).x ≠ 0 ∨ (angMom (γ 0)).y ≠ 0 at hn
    rw [h0] at hn; simp at hn
  obtain ⟨q, hq, -⟩ := ic2par_spec (γ 0) hmu hn he hE
  refine ⟨q.a, q.e, q.i, q.Om, q.om, fun t => ?_⟩
  have hfl := twoBody_unique hmu hγ hh t
  obtain ⟨q0, q', h0, h1, e1, e2, e3, e4, e5⟩ := ic2par_five (y := γ t) hmu hn he hE
    (by rw [hfl]; exact angMom_stateU hmu hh _) (by rw [hfl]; exact eccVec_stateU hmu hh _)
    (by rw [hfl]; exact energy_stateU hmu hh _)
  rw [hq] at h0
  obtain rfl := Option.some.inj h0
  exact ⟨q'.f, by rw [h1, ← e1, ← e2, ← e3, ← e4, ← e5]⟩

/-! ## When the body is back -/

section
variable {x : RV ℝ} {mu : ℝ} (hmu : 0 < mu) (hh : angMom x ≠ 0)
include hmu hh

/-- A body that comes back has made no net progress in the universal anomaly, up to revolutions. -/
theorem return_U2 {t : ℝ} (h : kepFlow x mu t = x) : U2 (alphaOf x mu) (anomU x mu t) = 0 := by
  set s := anomU x mu t with hs
  have hr : FU x mu s • x.r + GU x mu s • x.v = x.r := congrArg RV.r h
  have hF : FU x mu s - 1 = 0 := by
    by_contra k
    have e1 := congrArg V3.x hr
    have e2 := congrArg V3.y hr
    have e3 := congrArg V3.z hr
    simp only [add_x, add_y, add_z, smul_x, smul_y, smul_z] at e1 e2 e3
    apply hh
    ext
    · refine (mul_eq_zero.1 ?_).resolve_left k
      show (FU x mu s - 1) * (x.r.y * x.v.z - x.r.z * x.v.y) = 0
      linear_combination x.v.z * e2 - x.v.y * e3
    · refine (mul_eq_zero.1 ?_).resolve_left k
      show (FU x mu s - 1) * (x.r.z * x.v.x - x.r.x * x.v.z) = 0
      linear_combination x.v.x * e3 - x.v.z * e1
    · refine (mul_eq_zero.1 ?_).resolve_left k
      show (FU x mu s - 1) * (x.r.x * x.v.y - x.r.y * x.v.x) = 0
      linear_combination x.v.y * e1 - x.v.x * e2
  have hrn := norm_pos (r_ne_of_h hh)
  unfold FU at hF
  have : U2 (alphaOf x mu) s / norm x.r = 0 := by linarith
  exact (div_eq_zero_iff.1 this).resolve_right hrn.ne'

/-- Unbound bodies never come back. -/
theorem kepFlow_no_return (hE : 0 ≤ energy x mu) {t : ℝ} (h : kepFlow x mu t = x) : t = 0 := by
  have hU := return_U2 hmu hh h
  have hs : anomU x mu t = 0 := by
    rcases alpha_cases (alphaOf x mu) with ⟨b, hb, ha⟩ | ha | ⟨b, hb, ha⟩
    · exfalso
      rw [energy_alpha hmu hh, ha] at hE
      have : 0 < mu / 2 * b ^ 2 := by positivity
      linarith
    · rw [ha, U2_zero] at hU
      have : anomU x mu t ^ 2 = 0 := by linarith
      exact pow_eq_zero_iff (two_ne_zero) |>.1 this
    · rw [ha, U2_neg hb] at hU
      by_contra hc
      have h1 : 1 < cosh (b * anomU x mu t) := one_lt_cosh.2 (mul_ne_zero hb.ne' hc)
      have := (div_eq_zero_iff.1 hU).resolve_right (by positivity)
      linarith
  have := timeU_anomU hmu hh t
  rw [hs, timeU_zero hmu hh] at this
  exact this.symm

/-- A bound body is back exactly after whole numbers of periods. -/
theorem kepFlow_return_iff (hE : energy x mu < 0) {t : ℝ} :
    kepFlow x mu t = x ↔ ∃ n : ℤ, t = n * (2 * π * √((-mu / (2 * energy x mu)) ^ 3 / mu)) := by
  set T := 2 * π * √((-mu / (2 * energy x mu)) ^ 3 / mu) with hT
  have hT0 : 0 < T := by
    rw [hT, period_alpha hmu hh hE]
    have h1 := sqrt_pos.2 (alpha_pos hmu hh hE)
    have h2 := sqrt_pos.2 hmu
    have := pi_pos
    positivity
  have hper : Function.Periodic (kepFlow x mu) T := fun s => kepFlow_periodic hmu hh hE s
  constructor
  · intro h
    refine ⟨⌊t / T⌋, ?_⟩
    have hf := Int.floor_le (t / T)
    have hf2 := Int.lt_floor_add_one (t / T)
    rw [le_div_iff₀ hT0] at hf
    rw [div_lt_iff₀ hT0] at hf2
    have hred : kepFlow x mu (t - ⌊t / T⌋ * T) = x := by rw [hper.sub_int_mul_eq, h]
    by_contra hne
    have hlt : 0 < t - ⌊t / T⌋ * T := by
      rcases lt_or_eq_of_le hf with h | h
      · linarith
      · exact absurd h.symm hne
    exact kepFlow_min_period hmu hh hE hlt (by rw [← hT]; linarith) hred
  · rintro ⟨n, rfl⟩
    have := hper.int_mul n 0
    rw [zero_add] at this
    rw [this, kepFlow_zero hmu hh]

end

/-! ## The mean anomaly grows linearly -/

theorem ic2par_ellipse {x : RV ℝ} {mu : ℝ} (hmu : 0 < mu) (hn : (angMom x).x ≠ 0 ∨ (angMom x).y ≠ 0)
    (he : eccVec x mu ≠ 0) (hE : energy x mu < 0) {q : Par} (hq : ic2par x mu = some q) :
    q.Good ∧ parState q mu = x ∧ q.e < 1 ∧ 0 < q.a := by
  have hh0 : angMom x ≠ 0 := by
    intro h0; rw [h0] at hn; simp at hn
  obtain ⟨q', hq', hg, hx, qe, -⟩ := ic2par_full x hmu hn he hE.ne
  rw [hq] at hq'
  obtain rfl := Option.some.inj hq'
  have hEc : 0 < q.e := by rw [qe]; exact norm_pos he
  have hlt : q.e < 1 := by
    have hsq := eccVec_sq (mu := mu) (r_ne_of_h hh0) hmu.ne'
    have hEs := norm_mul_self (eccVec x mu)
    rw [← qe] at hEs
    have hhp : 0 < dot (angMom x) (angMom x) := by rw [← norm_sq]; exact pow_pos (norm_pos hh0) 2
    have hneg : 2 * energy x mu * dot (angMom x) (angMom x) / mu ^ 2 < 0 :=
      div_neg_of_neg_of_pos (mul_neg_of_neg_of_pos (by linarith) hhp) (by positivity)
    nlinarith
  refine ⟨hg, hx, hlt, ?_⟩
  have := hg.ae
  by_contra hc
  have := mul_nonpos_of_nonpos_of_nonneg (not_lt.1 hc) (by linarith : 0 ≤ 1 - q.e)
  linarith

theorem cos_half_of_f2m {f e M : ℝ} (h1 : e < 1) (h : f2m f e = some M) : cos (f / 2) ≠ 0 := by
  intro h0
  unfold f2m at h
  rw [if_neg h1.not_ge] at h
  have : f2e f e = none := by
    unfold f2e tan?
    simp [h0]
  rw [this] at h
  simp at h

/-- **C75**: on a bound orbit the mean anomaly of the elements grows linearly, at the rate `sqrt (mu / a^3)`. -/
theorem C75_mean_anomaly {mu : ℝ} (hmu : 0 < mu) {γ : ℝ → RV ℝ} (hγ : TwoBody mu γ)
    (hn : (cross (γ 0).r (γ 0).v).x ≠ 0 ∨ (cross (γ 0).r (γ 0).v).y ≠ 0) (he : eccVec (γ 0) mu ≠ 0)
    (hE : energy (γ 0) mu < 0) {t M0 M : ℝ} {q0 q : Par} (h0 : ic2par (γ 0) mu = some q0) (h1 : ic2par (γ t) mu = some q)
    (m0 : f2m q0.f q0.e = some M0) (m1 : f2m q.f q.e = some M) :
    ∃ j : ℤ, M = M0 + √(mu / q.a ^ 3) * t + 2 * π * j := by
  have hh : angMom (γ 0) ≠ 0 := by
    intro h0
    change (angMom (γ 0)).x ≠ 0 ∨ (angMom (γ 0)).y ≠ 0 at hn
    rw [h0] at hn; simp at hn
  have hfl := twoBody_unique hmu hγ hh t
  have ham : angMom (γ t) = angMom (γ 0) := by rw [hfl]; exact angMom_stateU hmu hh _
  have hec : eccVec (γ t) mu = eccVec (γ 0) mu := by rw [hfl]; exact eccVec_stateU hmu hh _
  have hen : energy (γ t) mu = energy (γ 0) mu := by rw [hfl]; exact energy_stateU hmu hh _
  obtain ⟨q0', q', i0, i1, e1, e2, e3, e4, e5⟩ := ic2par_five (y := γ t) hmu hn he hE.ne ham hec hen
  rw [h0] at i0
  obtain rfl := Option.some.inj i0
  rw [h1] at i1
  obtain rfl := Option.some.inj i1
  obtain ⟨g0, x0, l0, a0⟩ := ic2par_ellipse hmu hn he hE h0
  obtain ⟨g1, x1, l1, a1⟩ := ic2par_ellipse hmu (by rw [ham]; exact hn) (by rw [hec]; exact he) (by rw [hen]; exact hE) h1
  obtain ⟨E0, M0', k0, rfl, -, -, c0, s0⟩ := f2m_spec g0.e_nonneg l0 (cos_half_of_f2m l0 m0)
  rw [m0] at k0
  obtain rfl := Option.some.inj k0
  obtain ⟨E1, M1', k1, rfl, -, -, c1, s1⟩ := f2m_spec g1.e_nonneg l1 (cos_half_of_f2m l1 m1)
  rw [m1] at k1
  obtain rfl := Option.some.inj k1
  obtain ⟨b, hb, hab⟩ : ∃ b : ℝ, 0 < b ∧ q0.a = 1 / b ^ 2 :=
    ⟨1 / √q0.a, by positivity, by rw [div_pow, sq_sqrt a0.le]; field_simp⟩
  have y0 := parState_ell g0 l0 hb hmu hab c0 s0
  have y1 := parState_ell g1 l1 hb hmu (by rw [e1]; exact hab) c1 s1
  rw [x0] at y0
  rw [x1, e2, e3, e4, e5] at y1
  have hP := colP_sq q0.i q0.Om q0.om
  have hQ := colQ_sq q0.i q0.Om q0.om
  have hPQ := colPQ q0.i q0.Om q0.om
  have he2 : 0 < 1 - q0.e ^ 2 := by nlinarith [g0.e_nonneg]
  have hc2 := sq_sqrt he2.le
  have hα : alphaOf (γ 0) mu = b ^ 2 := by rw [y0]; exact ell_alpha hP hQ hPQ hb g0.e_nonneg l0 hc2 hmu E0
  -- the state at the eccentric anomaly `E1` is reached at the time `T1`, and at the time `t`
  have hT := ell_time hP hQ hPQ hb g0.e_nonneg l0 hc2 hmu E0 E1
  have hS := ell_state hP hQ hPQ hb g0.e_nonneg l0 hc2 hmu E0 E1
  rw [← y0] at hT hS
  rw [← y1] at hS
  have hk := sqrt_pos.2 hmu
  set T1 := ((E1 - q0.e * sin E1) - (E0 - q0.e * sin E0)) / (b ^ 3 * √mu) with hT1
  have hret : kepFlow (γ t) mu (T1 - t) = γ t := by
    have hf1 : kepFlow (γ 0) mu T1 = γ t := by rw [kepFlow_of_time hmu hh hT, hS]
    nth_rw 1 [hfl]
    rw [kepFlow_comp hmu hh, show t + (T1 - t) = T1 by ring, hf1]
  have hht : angMom (γ t) ≠ 0 := by rw [ham]; exact hh
  obtain ⟨n, hnn⟩ := (kepFlow_return_iff hmu hht (by rw [hen]; exact hE)).1 hret
  rw [hen, period_alpha hmu hh hE, hα, sqrt_sq hb.le] at hnn
  have hrate : √(mu / q.a ^ 3) = √mu * b ^ 3 := by
    rw [e1, hab, ← sqrt_mean hmu hb]
  refine ⟨n, ?_⟩
  rw [hrate, e2]
  have : T1 = t + n * (2 * π * (1 / (b ^ 3 * √mu))) := by linarith
  rw [hT1, div_eq_iff (by positivity)] at this
  have h3 : n * (2 * π * (1 / (b ^ 3 * √mu))) * (b ^ 3 * √mu) = 2 * π * n := by field_simp
  linarith

/-! ## Planets -/

/-- What the documentation of `planet.elements` promises ("the planet's elements at epoch",
pykep/docstrings.cpp:1011-1030): the elements returned for an epoch are numbers, and describe the state returned for
the same epoch. -/
def ElementsAtEpoch (u : Udpla) (mu t : ℝ) : Prop :=
  ∃ q x, Planet.elements u t .kepF = .ok (some q) ∧ Planet.eph u t = .ok (spread (some x)) ∧
    par2ic (Par.ofArr q) mu = .ok (some x)

/-- **C75**, where it holds: a planet with a parameter of the central body and no method `elements` of its own. -/
theorem C75_default {u : Udpla} {mu t : ℝ} (hmu : 0 < mu) (hm : u.muCentralBody = some (.ok mu)) (hel : u.elements = none)
    {x : RV ℝ} (hx : u.eph t = .ok (spread (some x))) (hn : (cross x.r x.v).x ≠ 0 ∨ (cross x.r x.v).y ≠ 0)
    (he : eccVec x mu ≠ 0) (hE : energy x mu ≠ 0) : ElementsAtEpoch u mu t ∧
      (∃ m, Planet.elements u t .meq = .ok (some m) ∧ eq2ic (Meq.ofArr m) mu false = some x) ∧
      ∃ m, Planet.elements u t .meqR = .ok (some m) ∧ eq2ic (Meq.ofArr m) mu true = some x := by
  have hrun : ∀ ty, Planet.elements u t ty = elementsFromPosvel x mu ty := by
    intro ty
    unfold Planet.elements Planet.eph Planet.getMuCentralBody
    rw [hel, hm, hx]
    rfl
  obtain ⟨⟨p, h1, h2⟩, h3, h4, -⟩ := C11_read_back x hmu hn he hE
  simp only [hrun]
  exact ⟨⟨p, x, by rw [hrun]; exact h1, hx, h2⟩, h3, h4⟩

/-- **C75**, where it holds: the low-precision planets, at every epoch they cover but those of an apocentre. -/
theorem C75_jpl {sv : Solver} (hsv : sv.Sound) (hq : sv.Quick) (info : Res String) {s : List Char} {p : JplLp}
    (hp : JplLp.ofName s = .ok p) {t : ℝ} (h1 : -73048 < t) (h2 : t < 18263)
    (hM : cos ((p.elements0 3 + p.elementsDot 3 * ((t - 1 / 2) / 36525)
      - (p.elements0 4 + p.elementsDot 4 * ((t - 1 / 2) / 36525))) * (π / 180)) ≠ -1) :
    ElementsAtEpoch (p.udpla sv info) MU_SUN t := by
  obtain ⟨-, -, -, h⟩ := C35_ellipse hsv hq info hp h1 h2 (T := (t - 1 / 2) / 36525)
    (u := fun i => p.elements0 i + p.elementsDot i * ((t - 1 / 2) / 36525)) (by ring) (fun _ => rfl) rfl
  obtain ⟨q, x, m, g, e1, e2, -, -, -, -, -, -, -, -, -, e3, -⟩ := h hM
  exact ⟨q, x, e2, e1, e3⟩

section
variable {sv : Solver} (hsv : sv.Sound) (hq : sv.Quick) {k : Keplerian} {nan : Res (RV (Option ℝ))} {info : String}
  {x : RV ℝ} {p : Arr6} (hk : k.Describes x p) (hmu : 0 < k.muCentralBody) (hh : cross x.r x.v ≠ 0)
include hsv hq hk hmu hh

/-- What a Keplerian planet returns as its elements describes its ephemeris exactly when the body is back to where it was
at the reference epoch. -/
theorem keplerian_elements_iff (hE : energy x k.muCentralBody ≠ 0) {t : ℝ}
    (hr : HypRange x k.muCentralBody ((t - k.refEpoch) * 86400)) :
    ElementsAtEpoch (k.udpla sv nan info) k.muCentralBody t ↔
      kepFlow x k.muCentralBody ((t - k.refEpoch) * 86400) = x := by
  have h0 := kepFlow_zero hmu hh
  have heph : Planet.eph (k.udpla sv nan info) t
      = .ok (spread (some (kepFlow x k.muCentralBody ((t - k.refEpoch) * 86400)))) := by
    rcases C37_flow hsv (nan := nan) (info := info) hmu (kepFlow_twoBody hmu hh) (by rw [h0]; exact hk.state)
      (by rw [h0]; exact hh) (by rw [h0]; exact hE) t (by rw [h0]; exact hr) with h | ⟨-, h⟩
    · exact h
    · exact absurd hq h
  have hel : Planet.elements (k.udpla sv nan info) t .kepF = .ok (some p) := hk.par t
  unfold ElementsAtEpoch
  constructor
  · rintro ⟨q, y, h1, h2, h3⟩
    rw [hel] at h1
    obtain rfl := Option.some.inj (Res.ok.inj h1)
    rw [hk.par_state] at h3
    obtain rfl := Option.some.inj (Res.ok.inj h3)
    rw [heph] at h2
    have := congrArg nums (Res.ok.inj h2)
    exact Option.some.inj this
  · intro h
    exact ⟨p, x, hel, by rw [heph, h], hk.par_state⟩

/-- **C75**, on Keplerian planets: on an ellipse the elements returned for an epoch describe the ephemeris at that epoch
exactly when a whole number of periods has passed since the reference epoch. -/
theorem C75_keplerian_ellipse (hE : energy x k.muCentralBody < 0) : ∃ T, 0 < T ∧ k.period = some T ∧
    ∀ t, ElementsAtEpoch (k.udpla sv nan info) k.muCentralBody t ↔ ∃ n : ℤ, (t - k.refEpoch) * 86400 = n * T := by
  obtain ⟨T, h0, h1, -⟩ := C10_returns hmu (kepFlow_twoBody hmu hh) (by rw [kepFlow_zero hmu hh]; exact hh)
    (by rw [kepFlow_zero hmu hh]; exact hE)
  have hp := h1 0
  rw [kepFlow_zero hmu hh] at hp
  have hT : T = 2 * π * √((-k.muCentralBody / (2 * energy x k.muCentralBody)) ^ 3 / k.muCentralBody) := by
    obtain ⟨a, T', a1, -, a2, a3, -⟩ := (C10_kepler x hmu (r_ne_of_h hh)).1 hE
    rw [hp] at a2
    rw [Option.some.inj a2, a3, a1]
    rfl
  refine ⟨T, h0, by rw [hk.period_eq, hp], fun t => ?_⟩
  rw [keplerian_elements_iff hsv hq hk hmu hh hE.ne (fun h => absurd h hE.not_gt), kepFlow_return_iff hmu hh hE, hT]

/-- **C75**, on Keplerian planets: on a hyperbola the elements returned for an epoch describe the ephemeris at that epoch
at the reference epoch only. -/
theorem C75_keplerian_hyperbola (hE : 0 < energy x k.muCentralBody) {t : ℝ}
    (hr : HypRange x k.muCentralBody ((t - k.refEpoch) * 86400)) :
    ElementsAtEpoch (k.udpla sv nan info) k.muCentralBody t ↔ t = k.refEpoch := by
  rw [keplerian_elements_iff hsv hq hk hmu hh hE.ne' hr]
  constructor
  · intro h
    have := kepFlow_no_return hmu hh hE.le h
    linarith
  · rintro rfl
    rw [sub_self, zero_mul, kepFlow_zero hmu hh]

/-- **C75**, the part that holds on every Keplerian planet: at every epoch the first five of the elements returned are
those of the state returned by the ephemeris at that epoch (as computed by `ic2par` for the planets built from a state
or with angles in the ranges of `ic2par`). -/
theorem C75_keplerian_partial (hn : (cross x.r x.v).x ≠ 0 ∨ (cross x.r x.v).y ≠ 0)
    (he : eccVec x k.muCentralBody ≠ 0) (hE : energy x k.muCentralBody ≠ 0)
    (hp : (ic2par x k.muCentralBody).map Par.arr = some p) {t : ℝ}
    (hr : HypRange x k.muCentralBody ((t - k.refEpoch) * 86400)) :
    ∃ q y g, Planet.elements (k.udpla sv nan info) t .kepF = .ok (some q) ∧
      Planet.eph (k.udpla sv nan info) t = .ok (spread (some y)) ∧
      (ic2par y k.muCentralBody).map Par.arr = some g ∧ ∀ i, i ≠ 5 → q i = g i := by
  have h0 := kepFlow_zero hmu hh
  have heph : Planet.eph (k.udpla sv nan info) t
      = .ok (spread (some (kepFlow x k.muCentralBody ((t - k.refEpoch) * 86400)))) := by
    rcases C37_flow hsv (nan := nan) (info := info) hmu (kepFlow_twoBody hmu hh) (by rw [h0]; exact hk.state)
      (by rw [h0]; exact hh) (by rw [h0]; exact hE) t (by rw [h0]; exact hr) with h | ⟨-, h⟩
    · exact h
    · exact absurd hq h
  obtain ⟨a, e, i, Om, om, hc⟩ := C75_constants hmu (kepFlow_twoBody hmu hh) (by rw [h0]; exact hn) (by rw [h0]; exact he)
    (by rw [h0]; exact hE)
  obtain ⟨f0, i0⟩ := hc 0
  obtain ⟨f1, i1⟩ := hc ((t - k.refEpoch) * 86400)
  rw [h0] at i0
  rw [i0] at hp
  obtain rfl := Option.some.inj hp
  refine ⟨_, _, _, hk.par t, heph, by rw [i1]; rfl, fun j hj => ?_⟩
  exact Par.arr_setF ⟨a, e, i, Om, om, f1⟩ f0 j hj

end

/-! ## Concrete cases -/

/-- A body on an inclined ellipse. -/
noncomputable def tilted : RV ℝ := ⟨⟨2, 0, 0⟩, ⟨0, 1 / 2, 3 / 4⟩⟩

theorem tilted_facts : cross tilted.r tilted.v ≠ 0 ∧ (cross tilted.r tilted.v).y ≠ 0 ∧ eccVec tilted 1 ≠ 0 ∧
    energy tilted 1 = -3 / 32 := by
  have hn : norm (⟨2, 0, 0⟩ : V3 ℝ) = 2 := by
    unfold V3.norm V3.dot; rw [show (2 * 2 + 0 * 0 + 0 * 0 : ℝ) = 2 ^ 2 by norm_num]
    exact sqrt_sq (by norm_num)
  refine ⟨fun h => ?_, by simp [tilted], fun h => ?_, ?_⟩
  · have := congrArg V3.y h
    simp [tilted] at this
  · have := congrArg V3.x h
    simp [eccVec, tilted, hn] at this
    norm_num at this
  · unfold energy tilted; rw [hn]; simp [V3.dot]; norm_num

/-- **C75** does not hold in general: half a period after its reference epoch, a planet is on the other side of its
orbit, and the elements returned for that epoch still have the anomaly of the reference epoch. -/
theorem C75_refuted : ∃ k : Keplerian, k = Keplerian.ofState 0 tilted 1 "a" (-1) (-1) (-1) ∧ ∃ t,
    ¬ ElementsAtEpoch (k.udpla idealSolver .ub "") 1 t := by
  obtain ⟨h1, h2, h3, h4⟩ := tilted_facts
  obtain ⟨p, hp, -⟩ := C36_state 0 tilted one_pos "a" (-1) (-1) (-1) (Or.inr h2) h3 (by rw [h4]; norm_num)
  obtain ⟨T, h0, -, hT⟩ := C75_keplerian_ellipse idealSolver_sound idealSolver_quick (nan := .ub) (info := "") hp one_pos h1
    (by show energy tilted 1 < 0; rw [h4]; norm_num)
  refine ⟨_, rfl, T / 2 / 86400, fun h => ?_⟩
  obtain ⟨n, hn⟩ := (hT _).1 h
  have hn : (T / 2 / 86400 - 0) * 86400 = n * T := hn
  have hn2 : (2 * n : ℝ) = 1 := by
    refine mul_right_cancel₀ h0.ne' ?_
    linarith
  have : 2 * n = 1 := by exact_mod_cast hn2
  omega

/-- The hypotheses of `C75_keplerian_ellipse` and `C75_keplerian_partial` met by the same planet. -/
example : ∃ p T, (Keplerian.ofState 0 tilted 1 "a" (-1) (-1) (-1)).Describes tilted p ∧ 0 < T ∧
    (∀ t, ElementsAtEpoch ((Keplerian.ofState 0 tilted 1 "a" (-1) (-1) (-1)).udpla idealSolver .ub "") 1 t ↔
      ∃ n : ℤ, (t - 0) * 86400 = n * T) ∧
    ∀ t, ∃ q y g, Planet.elements ((Keplerian.ofState 0 tilted 1 "a" (-1) (-1) (-1)).udpla idealSolver .ub "") t .kepF
        = .ok (some q) ∧
      Planet.eph ((Keplerian.ofState 0 tilted 1 "a" (-1) (-1) (-1)).udpla idealSolver .ub "") t = .ok (spread (some y)) ∧
      (ic2par y 1).map Par.arr = some g ∧ ∀ i, i ≠ 5 → q i = g i := by
  obtain ⟨h1, h2, h3, h4⟩ := tilted_facts
  have hE : energy tilted 1 < 0 := by rw [h4]; norm_num
  obtain ⟨p, hp, -⟩ := C36_state 0 tilted one_pos "a" (-1) (-1) (-1) (Or.inr h2) h3 hE.ne
  obtain ⟨T, h0, -, hT⟩ := C75_keplerian_ellipse idealSolver_sound idealSolver_quick (nan := .ub) (info := "") hp one_pos h1
    hE
  refine ⟨p, T, hp, h0, hT, fun t => ?_⟩
  refine C75_keplerian_partial idealSolver_sound idealSolver_quick hp one_pos h1 (Or.inr h2) h3 hE.ne ?_
    (fun h => absurd h hE.not_gt)
  exact Res.ok.inj (hp.par 0)

/-- The hypotheses of `C75_constants` and `C75_mean_anomaly` met by the motion of the same body, over any time. -/
example (t : ℝ) : ∃ q0 q M0, ic2par (kepFlow tilted 1 0) 1 = some q0 ∧ ic2par (kepFlow tilted 1 t) 1 = some q ∧
    q.a = q0.a ∧ f2m q0.f q0.e = some M0 ∧
    ∀ M, f2m q.f q.e = some M → ∃ j : ℤ, M = M0 + √(1 / q.a ^ 3) * t + 2 * π * j := by
  obtain ⟨h1, h2, h3, h4⟩ := tilted_facts
  have hE : energy tilted 1 < 0 := by rw [h4]; norm_num
  have h0 := kepFlow_zero one_pos h1
  obtain ⟨a, e, i, Om, om, hc⟩ := C75_constants one_pos (kepFlow_twoBody one_pos h1) (Or.inr (by rw [h0]; exact h2))
    (by rw [h0]; exact h3) (by rw [h0]; exact hE.ne)
  obtain ⟨f0, i0⟩ := hc 0
  obtain ⟨f1, i1⟩ := hc t
  obtain ⟨q, hq, g, -, qe, -, qc, -⟩ := ic2par_full tilted one_pos (Or.inr h2) h3 hE.ne
  obtain ⟨-, -, l, -⟩ := ic2par_ellipse one_pos (Or.inr h2) h3 hE hq
  have hf : cos (q.f / 2) ≠ 0 := by
    intro hz
    have hf1 : cos q.f = -1 := by
      have := cos_two_mul (q.f / 2)
      rw [hz, show 2 * (q.f / 2) = q.f by ring] at this
      rw [this]; norm_num
    rw [hf1, eq_comm, div_eq_iff (mul_pos (norm_pos h3) (norm_pos (r_ne_of_h h1))).ne'] at qc
    have hrr := eccVec_r (mu := 1) (r_ne_of_h h1)
    have hn : norm tilted.r = 2 := by
      unfold V3.norm V3.dot tilted; rw [show (2 * 2 + 0 * 0 + 0 * 0 : ℝ) = 2 ^ 2 by norm_num]
      exact sqrt_sq (by norm_num)
    have hd : dot (angMom tilted) (angMom tilted) = 13 / 4 := by
      simp [angMom, tilted, V3.dot]; norm_num
    rw [hn, hd] at hrr
    rw [hn, hrr] at qc
    have := norm_pos h3
    linarith
  obtain ⟨E, M0, hM, -⟩ := f2m_spec g.e_nonneg l hf
  rw [h0, hq] at i0
  obtain rfl := Option.some.inj i0
  refine ⟨⟨a, e, i, Om, om, f0⟩, ⟨a, e, i, Om, om, f1⟩, M0, by rw [h0]; exact hq, i1, rfl, hM, fun M h => ?_⟩
  exact C75_mean_anomaly one_pos (kepFlow_twoBody one_pos h1) (Or.inr (by rw [h0]; exact h2)) (by rw [h0]; exact h3)
    (by rw [h0]; exact hE) (by rw [h0]; exact hq) i1 hM h

/-- The hypotheses of `C75_default` met by a user planet on the same orbit. -/
example (t : ℝ) : ElementsAtEpoch { nullUdpla with
    eph := fun t => .ok (spread (some (kepFlow tilted 1 t))), muCentralBody := some (.ok 1) } 1 t := by
  obtain ⟨h1, h2, h3, h4⟩ := tilted_facts
  have ham : angMom (kepFlow tilted 1 t) = angMom tilted := angMom_stateU one_pos h1 _
  refine (C75_default (x := kepFlow tilted 1 t) one_pos rfl rfl rfl (Or.inr ?_) ?_ ?_).1
  · change (angMom (kepFlow tilted 1 t)).y ≠ 0
    rw [ham]; exact h2
  · rw [show eccVec (kepFlow tilted 1 t) 1 = eccVec tilted 1 from eccVec_stateU one_pos h1 _]; exact h3
  · rw [show energy (kepFlow tilted 1 t) 1 = energy tilted 1 from energy_stateU one_pos h1 _, h4]; norm_num

end Kep3
