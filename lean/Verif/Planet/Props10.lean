import Verif.Planet.Props08
import Verif.Elements.Props18
import Verif.Flyby.Props28

/-!
# Planets: default period and elements, fly-bys
-/

namespace Kep3
open Real V3

/-! ## The flow on an ellipse -/

section
variable {x : RV ℝ} {mu : ℝ} (hmu : 0 < mu) (hh : angMom x ≠ 0)
include hmu hh

theorem alpha_pos (hE : energy x mu < 0) : 0 < alphaOf x mu := by
  have hea := energy_alpha hmu hh (x := x)
  by_contra hc
  have : 0 ≤ -(mu / 2) * alphaOf x mu := mul_nonneg_of_nonpos_of_nonpos (by linarith) (by linarith)
  linarith

theorem period_alpha (hE : energy x mu < 0) :
    √((-mu / (2 * energy x mu)) ^ 3 / mu) = 1 / (√(alphaOf x mu) ^ 3 * √mu) := by
  have ha := alpha_pos hmu hh hE
  have hb := sqrt_pos.2 ha
  have hα : alphaOf x mu = √(alphaOf x mu) ^ 2 := (sq_sqrt ha.le).symm
  rw [energy_alpha hmu hh (x := x)]
  generalize √(alphaOf x mu) = b at *
  rw [hα]
  have hk := sqrt_pos.2 hmu
  have e1 : (-mu / (2 * (-(mu / 2) * b ^ 2))) ^ 3 / mu = (1 / (b ^ 3 * √mu)) ^ 2 := by
    have := sq_sqrt hmu.le
    field_simp
    rw [this]
  rw [e1, sqrt_sq (by positivity)]

theorem kepFlow_periodic (hE : energy x mu < 0) (t : ℝ) :
    kepFlow x mu (t + 2 * π * √((-mu / (2 * energy x mu)) ^ 3 / mu)) = kepFlow x mu t := by
  have ha := alpha_pos hmu hh hE
  have hb := sqrt_pos.2 ha
  have hα : alphaOf x mu = √(alphaOf x mu) ^ 2 := (sq_sqrt ha.le).symm
  obtain ⟨p1, p2⟩ := timeU_period_int hmu hh hb hα (anomU x mu t) 1
  have hk := sqrt_pos.2 hmu
  rw [period_alpha hmu hh hE, kepFlow_of_time hmu hh (s := anomU x mu t + 2 * π * (1 : ℤ) / √(alphaOf x mu)), p2]
  · rfl
  · rw [p1, timeU_anomU hmu hh]; push_cast; field_simp

/-- No shorter time brings the body back. -/
theorem kepFlow_min_period (hE : energy x mu < 0) {t : ℝ} (h0 : 0 < t)
    (h1 : t < 2 * π * √((-mu / (2 * energy x mu)) ^ 3 / mu)) : kepFlow x mu t ≠ x := by
  have ha := alpha_pos hmu hh hE
  have hb := sqrt_pos.2 ha
  have hα : alphaOf x mu = √(alphaOf x mu) ^ 2 := (sq_sqrt ha.le).symm
  have hk := sqrt_pos.2 hmu
  intro h
  set s := anomU x mu t with hs
  have hst : timeU x mu s = t := timeU_anomU hmu hh t
  have hmono := timeU_strictMono hmu hh
  have s0 : 0 < s := by
    rw [← hmono.lt_iff_lt, timeU_zero hmu hh, hst]; exact h0
  have s1 : s < 2 * π / √(alphaOf x mu) := by
    obtain ⟨p1, -⟩ := timeU_period_int hmu hh hb hα 0 1
    rw [timeU_zero hmu hh] at p1
    simp only [zero_add, Int.cast_one, mul_one] at p1
    rw [← hmono.lt_iff_lt, hst, p1]
    rw [period_alpha hmu hh hE] at h1
    rwa [← mul_div_assoc, mul_one] at h1
  -- the radius vector is unchanged, hence the Lagrange coefficients are 1 and 0
  have hr : FU x mu s • x.r + GU x mu s • x.v = x.r := congrArg RV.r h
  have hF : FU x mu s = 1 := by
    by_contra hc
    have e : (FU x mu s - 1) • angMom x = 0 := by
      have e1 := congrArg V3.x hr
      have e2 := congrArg V3.y hr
      have e3 := congrArg V3.z hr
      simp only [add_x, add_y, add_z, smul_x, smul_y, smul_z] at e1 e2 e3
      ext
      · show (FU x mu s - 1) * (x.r.y * x.v.z - x.r.z * x.v.y) = 0
        linear_combination x.v.z * e2 - x.v.y * e3
      · show (FU x mu s - 1) * (x.r.z * x.v.x - x.r.x * x.v.z) = 0
        linear_combination x.v.x * e3 - x.v.z * e1
      · show (FU x mu s - 1) * (x.r.x * x.v.y - x.r.y * x.v.x) = 0
        linear_combination x.v.y * e1 - x.v.x * e2
    have k : FU x mu s - 1 ≠ 0 := sub_ne_zero.2 hc
    apply hh
    have e1 := congrArg V3.x e
    have e2 := congrArg V3.y e
    have e3 := congrArg V3.z e
    simp only [smul_x, smul_y, smul_z, mul_eq_zero, zero_x, zero_y, zero_z] at e1 e2 e3
    ext
    · exact e1.resolve_left k
    · exact e2.resolve_left k
    · exact e3.resolve_left k
  have hrn := norm_pos (r_ne_of_h hh)
  unfold FU at hF
  have hU : U2 (alphaOf x mu) s = 0 := by
    have : U2 (alphaOf x mu) s / norm x.r = 0 := by linarith
    exact (div_eq_zero_iff.1 this).resolve_right hrn.ne'
  rw [hα, U2_pos hb] at hU
  have hc : cos (√(alphaOf x mu) * s) = 1 := by
    have := (div_eq_zero_iff.1 hU).resolve_right (by positivity)
    linarith
  obtain ⟨n, hn⟩ := (Real.cos_eq_one_iff _).1 hc
  have q0 : 0 < √(alphaOf x mu) * s := by positivity
  have q1 : √(alphaOf x mu) * s < 2 * π := by
    rw [lt_div_iff₀ hb] at s1; linarith
  have hpi := Real.pi_pos
  rw [← hn] at q0 q1
  have n0 : (0 : ℝ) < n := by
    by_contra hc
    have : (n : ℝ) * (2 * π) ≤ 0 := mul_nonpos_of_nonpos_of_nonneg (by linarith) (by linarith)
    linarith
  have n1 : (n : ℝ) < 1 := by
    by_contra hc
    have : 1 * (2 * π) ≤ (n : ℝ) * (2 * π) := mul_le_mul_of_nonneg_right (by linarith) (by linarith)
    linarith
  have n0' : 0 < n := by exact_mod_cast n0
  have n1' : n < 1 := by exact_mod_cast n1
  omega

end

/-! ## C10 -/

theorem periodFromEnergy_dot (x : RV ℝ) (mu : ℝ) (hr : x.r ≠ 0) : periodFromEnergy x mu =
    if 0 < energy x mu then none
    else do
      let a ← div? (-mu / 2) (energy x mu)
      let s ← div? (a * a * a) mu
      let s ← sqrt? s
      return π * 2 * s := by
  have hR : √(x.r.x * x.r.x + x.r.y * x.r.y + x.r.z * x.r.z) = norm x.r := rfl
  unfold periodFromEnergy
  simp only [hR]
  rw [div?_ok (norm_pos hr).ne']
  rfl

/-- **C10**: for a bound state the period is Kepler's third law, and positive; otherwise it is no number. -/
theorem C10_kepler (x : RV ℝ) {mu : ℝ} (hmu : 0 < mu) (hr : x.r ≠ 0) :
    (dot x.v x.v / 2 - mu / norm x.r < 0 → ∃ a T, a = -mu / (2 * (dot x.v x.v / 2 - mu / norm x.r)) ∧ 0 < a ∧
      periodFromEnergy x mu = some T ∧ T = 2 * π * √(a ^ 3 / mu) ∧ 0 < T) ∧
    (0 ≤ dot x.v x.v / 2 - mu / norm x.r → periodFromEnergy x mu = none) := by
  rw [show dot x.v x.v / 2 - mu / norm x.r = energy x mu from rfl, periodFromEnergy_dot x mu hr]
  generalize energy x mu = E
  constructor
  · intro hE
    have ha : 0 < -mu / 2 / E := div_pos_of_neg_of_neg (by linarith) hE
    have e : -mu / 2 / E = -mu / (2 * E) := by rw [div_div]
    refine ⟨_, _, rfl, by rw [← e]; exact ha, ?_, rfl, ?_⟩
    · rw [if_neg hE.not_gt, div?_ok hE.ne]
      simp only [Option.bind_eq_bind, Option.bind_some, div?_ok hmu.ne',
        sqrt?_ok (show 0 ≤ -mu / 2 / E * (-mu / 2 / E) * (-mu / 2 / E) / mu by positivity)]
      rw [e]
      show some _ = some _
      congr 1
      rw [show -mu / (2 * E) * (-mu / (2 * E)) * (-mu / (2 * E)) = (-mu / (2 * E)) ^ 3 by ring]
      ring
    · have := Real.pi_pos
      have h3 : 0 < √((-mu / (2 * E)) ^ 3 / mu) := sqrt_pos.2 (by rw [← e]; positivity)
      positivity
  · intro hE
    rcases hE.lt_or_eq with h | h
    · rw [if_pos h]
    · rw [← h]; simp [div?]

/-- **C10**: on a bound solution of the two-body problem the period computed from the state at any time is the same, it
is the time after which the motion repeats itself, and no shorter time brings the body back. -/
theorem C10_returns {mu : ℝ} (hmu : 0 < mu) {γ : ℝ → RV ℝ} (hγ : TwoBody mu γ) (hh : cross (γ 0).r (γ 0).v ≠ 0)
    (hE : energy (γ 0) mu < 0) : ∃ T, 0 < T ∧ (∀ t, periodFromEnergy (γ t) mu = some T) ∧ (∀ t, γ (t + T) = γ t) ∧
      ∀ t s, 0 < s → s < T → γ (t + s) ≠ γ t := by
  have hflow := twoBody_unique hmu hγ hh
  have hen : ∀ t, energy (γ t) mu = energy (γ 0) mu := fun t => by rw [hflow t]; exact energy_stateU hmu hh _
  have ham : ∀ t, angMom (γ t) = angMom (γ 0) := fun t => by rw [hflow t]; exact angMom_stateU hmu hh _
  have hpi := Real.pi_pos
  refine ⟨2 * π * √((-mu / (2 * energy (γ 0) mu)) ^ 3 / mu), ?_, ?_, ?_, ?_⟩
  · rw [period_alpha hmu hh hE]
    have h1 := sqrt_pos.2 (alpha_pos hmu hh hE)
    have h2 := sqrt_pos.2 hmu
    positivity
  · intro t
    have hr : (γ t).r ≠ 0 := r_ne_of_h (by rw [ham]; exact hh)
    obtain ⟨a, T, h1, -, h2, h3, -⟩ := (C10_kepler (γ t) hmu hr).1 (show energy (γ t) mu < 0 by rw [hen]; exact hE)
    rw [h2, h3, h1, show dot (γ t).v (γ t).v / 2 - mu / norm (γ t).r = energy (γ 0) mu from hen t]
  · intro t
    rw [hflow (t + _), hflow t]
    exact kepFlow_periodic hmu hh hE t
  · intro t s h0 h1 h
    rw [hflow (t + s), hflow t, ← kepFlow_comp hmu hh] at h
    refine kepFlow_min_period hmu (x := kepFlow (γ 0) mu t) ?_ ?_ h0 ?_ h
    · rw [← hflow t, ham]; exact hh
    · rw [← hflow t, hen]; exact hE
    · rw [← hflow t, hen]; exact h1

/-- **C10**: a planet with a central-body parameter and an ephemeris that moves along a bound orbit (epochs in days,
states in seconds) has the same period at all epochs, and its ephemeris repeats after it. -/
theorem C10_planet {u : Udpla} {mu t0 : ℝ} (hmu : 0 < mu) (hm : u.muCentralBody = some (.ok mu)) (hp : u.period = none)
    {γ : ℝ → RV ℝ} (hγ : TwoBody mu γ) (hh : cross (γ 0).r (γ 0).v ≠ 0) (hE : energy (γ 0) mu < 0)
    (he : ∀ t, u.eph t = .ok (spread (some (γ ((t - t0) * 86400))))) :
    ∃ T, 0 < T ∧ ∀ t, Planet.period u t = .ok (some T) ∧ Planet.eph u (t + T / 86400) = Planet.eph u t := by
  obtain ⟨T, h0, h1, h2, -⟩ := C10_returns hmu hγ hh hE
  refine ⟨T, h0, fun t => ⟨?_, ?_⟩⟩
  · rw [(C08_period u t).2.1 _ _ hp hm (he t), h1]
  · unfold Planet.eph
    rw [he, he, show (t + T / 86400 - t0) * 86400 = (t - t0) * 86400 + T by field_simp; ring, h2]

/-- The unit circle has period `2 pi`. -/
example : periodFromEnergy unitOrbit 1 = some (2 * π) := by
  have hn : norm unitOrbit.r = 1 := by simp [V3.norm, V3.dot, unitOrbit]
  have hv : dot unitOrbit.v unitOrbit.v = 1 := by simp [V3.dot, unitOrbit]
  have hr : unitOrbit.r ≠ 0 := fun h => by simpa [unitOrbit] using congrArg V3.x h
  obtain ⟨a, T, h1, -, h2, h3, -⟩ := (C10_kepler unitOrbit one_pos hr).1 (by rw [hn, hv]; norm_num)
  rw [hn, hv] at h1
  have : a = 1 := by rw [h1]; norm_num
  rw [h2, h3, this]; simp

/-! ## C11 -/

/-- The semi-major axis tested by the default elements. -/
theorem ic2parA_eq (x : RV ℝ) {mu : ℝ} (hmu : 0 < mu) (hh : angMom x ≠ 0) (hE : energy x mu ≠ 0) :
    ic2parA x mu = some (-mu / (2 * energy x mu)) := by
  have hr := r_ne_of_h hh
  have hR := norm_pos hr
  have hsq := eccVec_sq hr hmu.ne'
  have hH : 0 < dot (angMom x) (angMom x) := by rw [← norm_mul_self]; have := norm_pos hh; positivity
  have hev : (⟨(cross x.v (cross x.r x.v)).x / mu, (cross x.v (cross x.r x.v)).y / mu,
      (cross x.v (cross x.r x.v)).z / mu⟩ : V3 ℝ) - ⟨x.r.x / norm x.r, x.r.y / norm x.r, x.r.z / norm x.r⟩
      = eccVec x mu := by
    rw [smul_one_div, smul_one_div]; rfl
  have he : 1 - norm (eccVec x mu) * norm (eccVec x mu) = -(2 * energy x mu * dot (angMom x) (angMom x) / mu ^ 2) := by
    rw [norm_mul_self, hsq]; ring
  unfold ic2parA
  simp only [div?_ok hmu.ne', vdiv?_ok hmu.ne', vdiv?_ok hR.ne', Option.bind_eq_bind, Option.bind_some, hev, he]
  rw [div?_ok (by
    have : 2 * energy x mu * dot (angMom x) (angMom x) / mu ^ 2 ≠ 0 := by positivity
    exact neg_ne_zero.2 this)]
  congr 1
  show dot (angMom x) (angMom x) / mu / _ = _
  field_simp

/-- **C11**, hyperbolas: elements with a mean anomaly are refused. -/
theorem C11_hyperbola (x : RV ℝ) {mu : ℝ} (hmu : 0 < mu) (hh : cross x.r x.v ≠ 0) (hE : 0 < energy x mu) :
    elementsFromPosvel x mu .kepM = .err .logicError := by
  have h : -mu / (2 * energy x mu) < 1 := by
    have : -mu / (2 * energy x mu) ≤ 0 := div_nonpos_of_nonpos_of_nonneg (by linarith) (by linarith)
    linarith
  unfold elementsFromPosvel
  simp [ic2parA_eq x hmu hh hE.ne', h]

/-- **C11 fails**: elements with a mean anomaly are refused as well on every bound orbit with a semi-major axis below
one in the units of the user. The test on the semi-major axis was meant to recognise hyperbolas. -/
theorem C11_small_ellipse_refused (x : RV ℝ) {mu : ℝ} (hmu : 0 < mu) (hh : cross x.r x.v ≠ 0) (hE : energy x mu < 0)
    (ha : -mu / (2 * energy x mu) < 1) : elementsFromPosvel x mu .kepM = .err .logicError := by
  unfold elementsFromPosvel
  simp [ic2parA_eq x hmu hh hE.ne, ha]

/-- **C11**: parabolas aside, which orbits are refused. -/
theorem C11_refused_iff (x : RV ℝ) {mu : ℝ} (hmu : 0 < mu) (hh : cross x.r x.v ≠ 0) (hE : energy x mu ≠ 0) :
    elementsFromPosvel x mu .kepM = .err .logicError ↔ -mu / (2 * energy x mu) < 1 := by
  unfold elementsFromPosvel
  simp only [ic2parA_eq x hmu hh hE, Option.any_some, decide_eq_true_eq]
  split <;> simp_all

/-- Conversion of a true anomaly, not at the apocentre, to a mean anomaly. -/
theorem f2m_spec {e f : ℝ} (h0 : 0 ≤ e) (h1 : e < 1) (hf : cos (f / 2) ≠ 0) : ∃ E M, f2m f e = some M ∧
    M = E - e * sin E ∧ -π < E ∧ E < π ∧ cos f = (cos E - e) / (1 - e * cos E) ∧
    sin f = √(1 - e ^ 2) * sin E / (1 - e * cos E) := by
  have hpi := Real.pi_pos
  obtain ⟨k, g, hg, g1, g2⟩ : ∃ (k : ℤ) (g : ℝ), f = g + k * (2 * π) ∧ -π < g ∧ g ≤ π := by
    have hm := toIocMod_mem_Ioc (by positivity : 0 < 2 * π) (-π) f
    refine ⟨toIocDiv (by positivity : 0 < 2 * π) (-π) f, toIocMod (by positivity : 0 < 2 * π) (-π) f, ?_, hm.1, ?_⟩
    · have := toIocMod_add_toIocDiv_zsmul (by positivity : 0 < 2 * π) (-π) f
      rw [zsmul_eq_mul] at this; exact this.symm
    · linarith [hm.2]
  have hhalf : f / 2 = g / 2 + k * π := by rw [hg]; ring
  have g3 : g ≠ π := by
    rintro rfl
    apply hf
    rw [hhalf, cos_add_int_mul_pi, cos_pi_div_two, mul_zero]
  have g4 : g < π := lt_of_le_of_ne g2 g3
  have hgc := cos_half_ne g1 g4
  have hfe : f2e f e = f2e g e := by
    rw [f2e_run h0 h1 hf, f2e_run h0 h1 hgc, hhalf, tan_add_int_mul_pi]
  obtain ⟨E, hE, a1, a2, hback⟩ := (C12_ellipse h0 h1).2 g g1 g4
  obtain ⟨f', hf', -, -, -, c1, c2⟩ := (C12_ellipse h0 h1).1 E a1 a2
  rw [hback] at hf'
  obtain rfl := Option.some.inj hf'
  refine ⟨E, E - e * sin E, ?_, rfl, a1, a2, ?_, ?_⟩
  · unfold f2m e2m
    rw [if_neg h1.not_ge, hfe, hE]
    simp [h1.not_ge]
  · rw [hg, cos_add_int_mul_two_pi, c1]
  · rw [hg, sin_add_int_mul_two_pi, c2]

/-- **C11**, the part that holds: on every bound orbit with a semi-major axis of at least one that is neither circular
nor in the reference plane, and not exactly at the apocentre, elements with a mean anomaly are returned; the first five
are those returned with a true anomaly, and the last is the mean anomaly of the same point of the orbit: with `E` the
eccentric anomaly it is `E - e sin E`. -/
theorem C11_ellipse_partial (x : RV ℝ) {mu : ℝ} (hmu : 0 < mu) (hn : (cross x.r x.v).x ≠ 0 ∨ (cross x.r x.v).y ≠ 0)
    (he : eccVec x mu ≠ 0) (hE : energy x mu < 0) (ha : 1 ≤ -mu / (2 * energy x mu)) :
    ∃ p, elementsFromPosvel x mu .kepF = .ok (some p) ∧ 0 < p 1 ∧ p 1 < 1 ∧ p 0 = -mu / (2 * energy x mu) ∧
      (p 5 ≠ π → ∃ E m, elementsFromPosvel x mu .kepM = .ok (some m) ∧
        (∀ i, i ≠ 5 → m i = p i) ∧ m 5 = E - p 1 * sin E ∧ -π < E ∧ E < π ∧
        cos (p 5) = (cos E - p 1) / (1 - p 1 * cos E) ∧
        sin (p 5) = √(1 - p 1 ^ 2) * sin E / (1 - p 1 * cos E)) ∧
      (p 5 = π → elementsFromPosvel x mu .kepM = .ok none) := by
  obtain ⟨q, hq, qe, qa, -, -, -, -, -, -, -, -, -, -, f1, f2⟩ := ic2par_spec x hmu hn he hE.ne
  have hh : angMom x ≠ 0 := by
    intro h0
    change (angMom x).x ≠ 0 ∨ (angMom x).y ≠ 0 at hn
    rw [h0] at hn; simp at hn
  have hA := ic2parA_eq x hmu hh hE.ne
  have hr := r_ne_of_h hh
  have hsq := eccVec_sq hr hmu.ne'
  have hH : 0 < dot (angMom x) (angMom x) := by rw [← norm_mul_self]; have := norm_pos hh; positivity
  have e0 : 0 < q.e := by rw [qe]; exact norm_pos he
  have ee : q.e * q.e = 1 + 2 * energy x mu * dot (angMom x) (angMom x) / mu ^ 2 := by
    rw [qe, norm_mul_self, hsq]
  have hneg : 2 * energy x mu * dot (angMom x) (angMom x) / mu ^ 2 < 0 :=
    div_neg_of_neg_of_pos (mul_neg_of_neg_of_pos (by linarith) hH) (by positivity)
  have e1 : q.e < 1 := by
    by_contra hc
    have : 1 * 1 ≤ q.e * q.e := mul_le_mul (by linarith) (by linarith) zero_le_one e0.le
    linarith
  have ha' : q.a = -mu / (2 * energy x mu) := by
    have h2 : 1 - q.e * q.e = -(2 * energy x mu * dot (angMom x) (angMom x) / mu ^ 2) := by rw [ee]; ring
    rw [h2] at qa
    have hE0 := hE.ne
    have : q.a * -(2 * energy x mu * dot (angMom x) (angMom x) / mu ^ 2) =
      (-mu / (2 * energy x mu)) * -(2 * energy x mu * dot (angMom x) (angMom x) / mu ^ 2) := by
      rw [qa]; field_simp
    exact mul_right_cancel₀ (neg_ne_zero.2 hneg.ne) this
  refine ⟨q.arr, by unfold elementsFromPosvel; simp [hq], e0, e1, ha', ?_, ?_⟩
  · intro hf
    have hf : q.f ≠ π := hf
    have hc : cos (q.f / 2) ≠ 0 := by
      intro h0
      have hs : 0 ≤ q.f / 2 := by linarith
      have hs2 : q.f / 2 < π := by linarith
      rcases lt_trichotomy (q.f / 2) (π / 2) with h | h | h
      · exact (cos_pos_of_mem_Ioo ⟨by linarith [Real.pi_pos], h⟩).ne' h0
      · exact hf (by linarith)
      · exact (cos_neg_of_pi_div_two_lt_of_lt h (by linarith)).ne h0
    obtain ⟨E, M, hM, hME, b1, b2, b3, b4⟩ := f2m_spec e0.le e1 hc
    refine ⟨E, Par.arr { q with f := M }, ?_, ?_, hME, b1, b2, b3, b4⟩
    · unfold elementsFromPosvel
      simp [hA, ha.not_gt, hq, hM]
    · intro i hi
      fin_cases i <;> first | rfl | exact absurd rfl hi
  · intro hf
    have hf : q.f = π := hf
    unfold elementsFromPosvel
    have : f2m q.f q.e = none := by
      unfold f2m f2e
      rw [if_neg e1.not_ge, if_neg e1.not_ge, hf, div?_ok (by linarith)]
      have : tan? (π / 2) = none := by unfold tan?; rw [if_pos cos_pi_div_two]
      rw [this]
      simp
    simp [hA, ha.not_gt, hq, this]

/-- **C11**, other types: the default elements describe the state they were computed from. -/
theorem C11_read_back (x : RV ℝ) {mu : ℝ} (hmu : 0 < mu) (hn : (cross x.r x.v).x ≠ 0 ∨ (cross x.r x.v).y ≠ 0)
    (he : eccVec x mu ≠ 0) (hE : energy x mu ≠ 0) :
    (∃ p, elementsFromPosvel x mu .kepF = .ok (some p) ∧ par2ic (Par.ofArr p) mu = .ok (some x)) ∧
    (∃ p, elementsFromPosvel x mu .meq = .ok (some p) ∧ eq2ic (Meq.ofArr p) mu false = some x) ∧
    (∃ p, elementsFromPosvel x mu .meqR = .ok (some p) ∧ eq2ic (Meq.ofArr p) mu true = some x) ∧
    elementsFromPosvel x mu .posvel = .err .logicError := by
  obtain ⟨q, hq, hback, i1, i2, -⟩ := C16_round_trip x hmu hn he hE
  obtain ⟨q', hq', qe, qa, -, -, qc, -, -⟩ := ic2par_spec x hmu hn he hE
  rw [hq] at hq'
  obtain rfl := Option.some.inj hq'
  have hh : angMom x ≠ 0 := by
    intro h0
    change (angMom x).x ≠ 0 ∨ (angMom x).y ≠ 0 at hn
    rw [h0] at hn; simp at hn
  have hr := r_ne_of_h hh
  have hR := norm_pos hr
  have hH : 0 < dot (angMom x) (angMom x) := by rw [← norm_mul_self]; have := norm_pos hh; positivity
  have e0 : 0 < q.e := by rw [qe]; exact norm_pos he
  have hslr : 0 < q.a * (1 - q.e * q.e) := by rw [qa]; positivity
  have hae : 0 < q.a * (1 - q.e) := by
    have : q.a * (1 - q.e * q.e) = q.a * (1 - q.e) * (1 + q.e) := by ring
    rw [this] at hslr
    exact pos_of_mul_pos_left hslr (by linarith)
  have hper := eccVec_r (mu := mu) hr
  have hden : norm x.r * (1 + q.e * cos q.f) = dot (angMom x) (angMom x) / mu := by
    rw [qc, dot_smul, V3.dot_comm x.r, hper]; field_simp; ring
  have hden0 : 0 < 1 + q.e * cos q.f := by
    have h3 : 0 < norm x.r * (1 + q.e * cos q.f) := by rw [hden]; positivity
    exact pos_of_mul_pos_right h3 hR.le
  have ho := C17_orbit q hmu e0.le hae hden0
  obtain ⟨y, hy, -, -, hcross, -⟩ := ho
  rw [hback] at hy
  obtain rfl := Option.some.inj (Res.ok.inj hy)
  have hi : sin q.i ≠ 0 := by
    intro h0
    have c1 := congrArg V3.x hcross
    have c2 := congrArg V3.y hcross
    simp only [smul_x, smul_y, h0, mul_zero] at c1 c2
    rcases hn with h | h
    · exact h c1
    · exact h c2
  have i1' : 0 < q.i := lt_of_le_of_ne i1 (fun h => hi (by rw [← h, sin_zero]))
  have i2' : q.i < π := lt_of_le_of_ne i2 (fun h => hi (by rw [h, sin_pi]))
  have ci : cos (q.i / 2) ≠ 0 := (cos_pos_of_mem_Ioo ⟨by linarith [Real.pi_pos], by linarith⟩).ne'
  have si : sin (q.i / 2) ≠ 0 := (sin_pos_of_pos_of_lt_pi (by linarith) (by linarith)).ne'
  refine ⟨⟨q.arr, by unfold elementsFromPosvel; simp [hq], hback⟩, ?_, ?_, rfl⟩
  · obtain ⟨m, y, h1, h2, h3⟩ := C20_same_state q false hmu e0.le hae hden0 ci fun _ => si
    rw [hback] at h3
    obtain rfl := Option.some.inj (Res.ok.inj h3)
    exact ⟨m.arr, by unfold elementsFromPosvel; simp [hq, h1], h2⟩
  · obtain ⟨m, y, h1, h2, h3⟩ := C20_same_state q true hmu e0.le hae hden0 ci fun _ => si
    rw [hback] at h3
    obtain rfl := Option.some.inj (Res.ok.inj h3)
    exact ⟨m.arr, by unfold elementsFromPosvel; simp [hq, h1], h2⟩

/-- A bound orbit with semi-major axis 1/2 (a fraction of an astronomical unit, say) is refused. -/
example : elementsFromPosvel ⟨⟨1 / 2, 0, 0⟩, ⟨0, 1, 1⟩⟩ 1 .kepM = .err .logicError := by
  have hn : norm (⟨1 / 2, 0, 0⟩ : V3 ℝ) = 1 / 2 := by
    unfold V3.norm V3.dot; rw [show (1 / 2 * (1 / 2) + 0 * 0 + 0 * 0 : ℝ) = (1 / 2) ^ 2 by norm_num]
    exact sqrt_sq (by norm_num)
  have hE : energy ⟨⟨1 / 2, 0, 0⟩, ⟨0, 1, 1⟩⟩ 1 = -1 := by
    unfold energy; rw [hn]; simp [V3.dot]; norm_num
  exact C11_small_ellipse_refused _ one_pos (fun h => by simpa using congrArg V3.y h) (by rw [hE]; norm_num)
    (by rw [hE]; norm_num)

/-- An inclined ellipse with semi-major axis 8/3, where the elements are returned. -/
example : ∃ p : Arr6, elementsFromPosvel ⟨⟨2, 0, 0⟩, ⟨0, 1 / 2, 3 / 4⟩⟩ 1 .kepF = .ok (some p) ∧ 0 < p 1 ∧ p 1 < 1 := by
  have hn : norm (⟨2, 0, 0⟩ : V3 ℝ) = 2 := by
    unfold V3.norm V3.dot; rw [show (2 * 2 + 0 * 0 + 0 * 0 : ℝ) = 2 ^ 2 by norm_num]
    exact sqrt_sq (by norm_num)
  have hE : energy ⟨⟨2, 0, 0⟩, ⟨0, 1 / 2, 3 / 4⟩⟩ 1 = -3 / 32 := by
    unfold energy; rw [hn]; simp [V3.dot]; norm_num
  obtain ⟨p, h1, h2, h3, -⟩ := C11_ellipse_partial ⟨⟨2, 0, 0⟩, ⟨0, 1 / 2, 3 / 4⟩⟩ one_pos (Or.inr (by simp))
    (fun h => by
      have := congrArg V3.x h
      simp [eccVec, hn] at this
      norm_num at this) (by rw [hE]; norm_num) (by rw [hE]; norm_num)
  exact ⟨p, h1, h2, h3⟩

/-! ## C29 -/

/-- **C29**, the part that holds: the planet's own gravity parameter and safe radius are used. -/
theorem C29_physical_partial (vin vout : V3 ℝ) {u : Udpla} {mu safe : ℝ} (h1 : u.muSelf = some (.ok mu))
    (h2 : u.safeRadius = some (.ok safe)) :
    fbConPl vin vout u = .ok (fbCon vin vout mu safe) ∧ fbDvPl vin vout u = .ok (fbDv vin vout mu safe) := by
  unfold fbConPl fbDvPl Planet.getMuSelf Planet.getSafeRadius
  rw [h1, h2]; exact ⟨rfl, rfl⟩

/-- **C29 fails**: for a planet that defines neither, both functions return what they return for a body of unit gravity
parameter and unit safe radius. -/
theorem C29_silent (vin vout : V3 ℝ) {u : Udpla} (h1 : u.muSelf = none) (h2 : u.safeRadius = none) :
    fbConPl vin vout u = .ok (fbCon vin vout 1 1) ∧ fbDvPl vin vout u = .ok (fbDv vin vout 1 1) := by
  have h : fbIneq vin vout (-1) (-1) = fbIneq vin vout 1 1 := by
    unfold fbIneq
    rw [div?_ok (by norm_num : (-1 : ℝ) ≠ 0), div?_ok (one_ne_zero), neg_div_neg_eq]
  unfold fbConPl fbDvPl Planet.getMuSelf Planet.getSafeRadius
  rw [h1, h2]
  constructor
  · show Res.ok (fbCon vin vout (-1) (-1)) = _
    unfold fbCon; rw [h]
  · show Res.ok (fbDv vin vout (-1) (-1)) = _
    unfold fbDv; rw [h]

/-- **C29 fails** also with a gravity parameter but no safe radius, in the range of all practical values (the square of
the incoming relative speed below twice the parameter, in the units used): the constraint on the turn angle is no number,
and the impulse is returned as if any turn were possible. -/
theorem C29_no_radius (vin vout : V3 ℝ) {u : Udpla} {mu : ℝ} (hmu : 0 < mu) (h1 : u.muSelf = some (.ok mu))
    (h2 : u.safeRadius = none) (hi : vin ≠ 0) (hv : dot vin vin < 2 * mu) :
    fbConPl vin vout u = .ok (dot vin vin - dot vout vout, none) ∧ fbDvPl vin vout u = .ok |norm vout - norm vin| := by
  have hv0 : 0 < dot vin vin := by rw [← norm_mul_self]; have := norm_pos hi; positivity
  have h : fbIneq vin vout mu (-1) = none := by
    unfold fbIneq
    rw [div?_ok hmu.ne']
    simp only [Option.bind_eq_bind, Option.bind_some]
    rw [show vin.x * vin.x + vin.y * vin.y + vin.z * vin.z = dot vin vin from rfl]
    have hd : (div? 1 (1 + -1 / mu * dot vin vin)).bind (fun ie => asin? ie) = none := by
      unfold div?
      split
      · rfl
      · next hne =>
        have b1 : 1 + -1 / mu * dot vin vin < 1 := by
          have : 0 < 1 / mu * dot vin vin := by positivity
          have e : -1 / mu * dot vin vin = -(1 / mu * dot vin vin) := by ring
          linarith
        have b2 : -1 < 1 + -1 / mu * dot vin vin := by
          have : 1 / mu * dot vin vin < 2 := by
            rw [one_div, inv_mul_lt_iff₀ hmu]; linarith
          have e : -1 / mu * dot vin vin = -(1 / mu * dot vin vin) := by ring
          linarith
        have e : (some (1 / (1 + -1 / mu * dot vin vin))).bind (fun ie => asin? ie) =
            asin? (1 / (1 + -1 / mu * dot vin vin)) := rfl
        rw [e]
        unfold asin?
        rw [if_neg]
        rintro ⟨c1, c2⟩
        generalize 1 + -1 / mu * dot vin vin = d at *
        rcases lt_or_gt_of_ne hne with hd | hd
        · rw [le_div_iff_of_neg hd] at c1; linarith
        · rw [div_le_iff₀ hd] at c2; linarith
    cases sqrt? (dot vin vin * (vout.x * vout.x + vout.y * vout.y + vout.z * vout.z)) with
    | none => rfl
    | some s =>
      simp only [Option.bind_some]
      cases div? (vin.x * vout.x + vin.y * vout.y + vin.z * vout.z) s with
      | none => rfl
      | some c =>
        simp only [Option.bind_some]
        cases acos? c with
        | none => rfl
        | some al =>
          simp only [Option.bind_some]
          cases hq : div? 1 (1 + -1 / mu * dot vin vin) with
          | none => rfl
          | some ie =>
            rw [hq] at hd
            have hd : asin? ie = none := hd
            simp only [Option.bind_some, hd]
            rfl
  unfold fbConPl fbDvPl Planet.getMuSelf Planet.getSafeRadius
  rw [h1, h2]
  constructor
  · show Res.ok (fbCon vin vout mu (-1)) = _
    unfold fbCon; rw [h]; rfl
  · show Res.ok (fbDv vin vout mu (-1)) = _
    unfold fbDv; rw [h]; rfl

/-- The default planet has neither, and both functions give a number for it. -/
example : fbConPl ⟨1, 0, 0⟩ ⟨0, 1, 0⟩ nullUdpla = .ok (fbCon ⟨1, 0, 0⟩ ⟨0, 1, 0⟩ 1 1) :=
  (C29_silent _ _ rfl rfl).1

/-- The Earth without a safe radius, in SI units: reversing a relative velocity of 3 km/s is reported to cost nothing. -/
example {u : Udpla} (h1 : u.muSelf = some (.ok 398600441800000)) (h2 : u.safeRadius = none) :
    fbDvPl ⟨3000, 0, 0⟩ ⟨-3000, 0, 0⟩ u = .ok 0 := by
  rw [(C29_no_radius _ _ (by norm_num) h1 h2 (fun h => by simpa using congrArg V3.x h)
    (by simp [V3.dot]; norm_num)).2]
  simp [V3.norm, V3.dot]

end Kep3
