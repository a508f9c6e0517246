import Verif.Lagr.KepRun
import Verif.Lagr.Unique

/-!
# C72: propagation by a difference of true anomaly

`propagate_lagrangian_theta_v`, pykep/plot/__init__.py:40-102, exact real arithmetic.
-/

namespace Kep3
open Real V3

namespace Plot

/-- The denominator of `Rf`, pykep/plot/__init__.py:82-90, for the cosine and the sine of the angle. -/
noncomputable def den (x : RV ℝ) (mu C S : ℝ) : ℝ :=
  let R0 := norm x.r
  let sigma0 := dot x.r x.v / √mu
  let h := norm (cross x.r x.v)
  let p := h * h / mu
  R0 + (p - R0) * C - √p * sigma0 * S

/-- The body of the loop, pykep/plot/__init__.py:75-101, for the cosine and the sine of the angle. -/
noncomputable def thetaCS (x : RV ℝ) (mu C S : ℝ) : RV ℝ :=
  let R0 := norm x.r
  let sigma0 := dot x.r x.v / √mu
  let h := norm (cross x.r x.v)
  let p := h * h / mu
  let Rf := p * R0 / den x mu C S
  let F := 1 - Rf / p * (1 - C)
  let G := R0 * Rf / h * S
  let Ft := √mu / R0 / p * (sigma0 * (1 - C) - √p * S)
  let Gt := 1 - R0 / p * (1 - C)
  ⟨F • x.r + G • x.v, Ft • x.r + Gt • x.v⟩

/-- The body of the loop for one angle. Where a denominator vanishes (a radial motion, or an asymptote) the code computes
infinities or NaN, and this is not used. -/
noncomputable def thetaState (x : RV ℝ) (mu θ : ℝ) : RV ℝ := thetaCS x mu (cos θ) (sin θ)

/-- `propagate_lagrangian_theta_v`, pykep/plot/__init__.py:40-102. -/
noncomputable def propagateTheta (x : RV ℝ) (thetas : List ℝ) (mu : ℝ) (stm : Bool) : Res (List (RV ℝ)) :=
  if stm then .err .notImplemented else .ok (thetas.map (thetaState x mu))

/-! ## States of one orbit -/

theorem sqrt_slr {H mu : ℝ} (hH : 0 < H) (hmu : 0 < mu) (d : ℝ) : √(H * H / mu) * (d / √mu) = H * d / mu := by
  have hk := sqrt_pos.2 hmu
  have hs := mul_self_sqrt hmu.le
  rw [sqrt_div (by positivity), sqrt_mul_self hH.le]
  field_simp
  rw [sq, hs, mul_comm]

theorem den_eq {x : RV ℝ} {mu : ℝ} (hmu : 0 < mu) (hh : angMom x ≠ 0) (C S : ℝ) :
    den x mu C S = norm x.r + (norm (angMom x) ^ 2 / mu - norm x.r) * C - norm (angMom x) * dot x.r x.v / mu * S := by
  unfold den
  simp only
  rw [show cross x.r x.v = angMom x from rfl, sqrt_slr (norm_pos hh) hmu, sq]

section
variable {x y : RV ℝ} {mu C S : ℝ}

/-- The position in the frame of the initial one. -/
theorem pos_frame (hh : angMom x ≠ 0) (hy : angMom y = angMom x)
    (hC : dot x.r y.r = norm x.r * norm y.r * C)
    (hS : dot (cross x.r y.r) (angMom x) = norm (angMom x) * norm x.r * norm y.r * S) :
    y.r = (norm y.r * C / norm x.r) • x.r +
      (norm y.r * S / (norm (angMom x) * norm x.r)) • cross (angMom x) x.r := by
  have hR := norm_pos (r_ne_of_h hh)
  have hH := norm_pos hh
  have p1 : dot x.r (angMom x) = 0 := dot_cross_self_left _ _
  have p2 : dot y.r (angMom x) = 0 := by rw [← hy]; exact dot_cross_self_left _ _
  have r2 := norm_mul_self x.r
  have h2 := norm_mul_self (angMom x)
  have w1 : dot (cross (angMom x) x.r) x.r = 0 := cross_dot_self_right _ _
  have w2 : dot (cross (angMom x) x.r) (angMom x) = 0 := cross_dot_self_left _ _
  have w3 : dot (cross (angMom x) x.r) (cross (angMom x) x.r) = dot (angMom x) (angMom x) * dot x.r x.r := by
    rw [lagrange, dot_comm (angMom x) x.r, p1]; ring
  have t : dot y.r (cross (angMom x) x.r) = dot (cross x.r y.r) (angMom x) := by simp [dot]; ring
  have hcr : cross ((1 / norm (angMom x)) • angMom x) ((1 / norm x.r) • x.r) =
      (1 / norm (angMom x) * (1 / norm x.r)) • cross (angMom x) x.r := by ext <;> simp <;> ring
  refine eq_of_frame (n := (1 / norm x.r) • x.r) (W := (1 / norm (angMom x)) • angMom x) ?_ ?_ ?_ ?_ ?_ ?_
  · rw [dot_smul, smul_dot, ← r2]; field_simp
  · rw [dot_smul, smul_dot, ← h2]; field_simp
  · rw [dot_smul, smul_dot, p1]; ring
  · rw [dot_smul, dot_smul, add_dot, smul_dot, smul_dot, w1, ← r2, dot_comm y.r, hC]; field_simp; ring
  · rw [hcr, dot_smul, dot_smul, add_dot, smul_dot, smul_dot, t, hS, w3, ← r2, ← h2, dot_comm x.r, w1]; field_simp; ring
  · rw [dot_smul, dot_smul, add_dot, smul_dot, smul_dot, w2, p1, p2]; ring

/-- The equation of the conic through the initial state. -/
theorem conic (hmu : 0 < mu) (hh : angMom x ≠ 0) (hy : angMom y = angMom x) (he : eccVec y mu = eccVec x mu)
    (hC : dot x.r y.r = norm x.r * norm y.r * C)
    (hS : dot (cross x.r y.r) (angMom x) = norm (angMom x) * norm x.r * norm y.r * S) :
    den x mu C S * norm y.r = norm (angMom x) ^ 2 / mu * norm x.r := by
  have hR := norm_pos (r_ne_of_h hh)
  have hH := norm_pos hh
  have hhy : angMom y ≠ 0 := by rw [hy]; exact hh
  have h2 := norm_mul_self (angMom x)
  have e0 := eccVec_r (mu := mu) (r_ne_of_h hh)
  have e1 := eccVec_r (mu := mu) (r_ne_of_h hhy)
  have e2 := cross_h_ecc_r (x := x) (mu := mu)
  rw [he, hy, pos_frame hh hy hC hS, dot_add, dot_smul, dot_smul] at e1
  have e3 : dot (eccVec x mu) (cross (angMom x) x.r) = -dot (cross (angMom x) (eccVec x mu)) x.r := by simp [dot]; ring
  rw [← pos_frame hh hy hC hS, e3, e2, e0, ← h2] at e1
  rw [den_eq hmu hh]
  field_simp at e1 ⊢
  linear_combination e1

/-- The velocity in the frame of the initial position. -/
theorem vel_frame (hmu : 0 < mu) (hh : angMom x ≠ 0) (hy : angMom y = angMom x) (he : eccVec y mu = eccVec x mu)
    (hC : dot x.r y.r = norm x.r * norm y.r * C)
    (hS : dot (cross x.r y.r) (angMom x) = norm (angMom x) * norm x.r * norm y.r * S) :
    (norm (angMom x) ^ 2 / mu) • (y.v - x.v) =
      ((C - 1) / norm x.r) • cross (angMom x) x.r - (S * norm (angMom x) / norm x.r) • x.r := by
  have hR := norm_pos (r_ne_of_h hh)
  have hH := norm_pos hh
  have hhy : angMom y ≠ 0 := by rw [hy]; exact hh
  have hRy := norm_pos (r_ne_of_h hhy)
  have h2 := norm_sq (angMom x)
  have c0 := cross_h_ecc (x := x) (mu := mu)
  have c1 := cross_h_ecc (x := y) (mu := mu)
  rw [he, hy, c0] at c1
  have hr := pos_frame hh hy hC hS
  have p1 : dot x.r (angMom x) = 0 := dot_cross_self_left _ _
  have hcc : cross (angMom x) (cross (angMom x) x.r) = -(norm (angMom x) ^ 2) • x.r := by
    have : cross (angMom x) (cross (angMom x) x.r) =
        dot x.r (angMom x) • angMom x - dot (angMom x) (angMom x) • x.r := by ext <;> simp [dot] <;> ring
    rw [this, p1, h2]; ext <;> simp
  have hcr : cross (angMom x) y.r = (norm y.r * C / norm x.r) • cross (angMom x) x.r -
      (norm y.r * S / (norm (angMom x) * norm x.r) * norm (angMom x) ^ 2) • x.r := by
    have : cross (angMom x) y.r = (norm y.r * C / norm x.r) • cross (angMom x) x.r +
        (norm y.r * S / (norm (angMom x) * norm x.r)) • cross (angMom x) (cross (angMom x) x.r) := by
      conv_lhs => rw [hr]
      ext <;> simp <;> ring
    rw [this, hcc]; ext <;> simp <;> ring
  rw [hcr, ← h2] at c1
  generalize cross (angMom x) x.r = w at c1 ⊢
  generalize norm (angMom x) = H at *
  generalize norm x.r = R0 at *
  generalize norm y.r = R at *
  ext
  · have := congrArg V3.x c1
    simp only [smul_x, sub_x] at this ⊢
    field_simp at this ⊢
    linear_combination (-1 : ℝ) * this
  · have := congrArg V3.y c1
    simp only [smul_y, sub_y] at this ⊢
    field_simp at this ⊢
    linear_combination (-1 : ℝ) * this
  · have := congrArg V3.z c1
    simp only [smul_z, sub_z] at this ⊢
    field_simp at this ⊢
    linear_combination (-1 : ℝ) * this

/-- The state with the same invariants, whose position makes the angle with this cosine and sine, is the one computed. -/
theorem theta_core (hmu : 0 < mu) (hh : angMom x ≠ 0) (hy : angMom y = angMom x) (he : eccVec y mu = eccVec x mu)
    (hC : dot x.r y.r = norm x.r * norm y.r * C)
    (hS : dot (cross x.r y.r) (angMom x) = norm (angMom x) * norm x.r * norm y.r * S) : thetaCS x mu C S = y := by
  have hR := norm_pos (r_ne_of_h hh)
  have hH := norm_pos hh
  have hhy : angMom y ≠ 0 := by rw [hy]; exact hh
  have hRy := norm_pos (r_ne_of_h hhy)
  have hk := sqrt_pos.2 hmu
  have hks := mul_self_sqrt hmu.le
  have hco := conic hmu hh hy he hC hS
  have hr := pos_frame hh hy hC hS
  have hv := vel_frame hmu hh hy he hC hS
  have hw : cross (angMom x) x.r = norm x.r ^ 2 • x.v - dot x.r x.v • x.r := by
    rw [norm_sq]; unfold angMom; ext <;> simp [dot] <;> ring
  have hd : den x mu C S ≠ 0 := by
    intro h0; rw [h0, zero_mul] at hco
    have : 0 < norm (angMom x) ^ 2 / mu * norm x.r := by positivity
    linarith
  have hRf : norm (angMom x) * norm (angMom x) / mu * norm x.r / den x mu C S = norm y.r := by
    rw [div_eq_iff hd, ← sq, ← hco]; ring
  have hco' := hco
  rw [den_eq hmu hh] at hco'
  unfold thetaCS
  simp only
  rw [show cross x.r x.v = angMom x from rfl, hRf]
  have hFt : √mu / norm x.r / (norm (angMom x) * norm (angMom x) / mu) *
      (dot x.r x.v / √mu * (1 - C) - √(norm (angMom x) * norm (angMom x) / mu) * S)
      = mu / norm x.r / norm (angMom x) ^ 2 * (dot x.r x.v * (1 - C) - norm (angMom x) * S) := by
    rw [sqrt_div (by positivity), sqrt_mul_self hH.le]
    field_simp
  rw [hFt]
  rw [hw] at hr hv
  generalize norm (angMom x) = H at *
  generalize norm x.r = R0 at *
  generalize dot x.r x.v = d at *
  obtain ⟨yr, yv⟩ := y
  simp only at *
  generalize norm yr = R at *
  have hF : 1 - R / (H * H / mu) * (1 - C) = R * C / R0 - R * S / (H * R0) * d := by
    field_simp at hco' ⊢
    linear_combination (-1 : ℝ) * hco'
  rw [hF]
  congr 1
  · rw [hr]
    ext <;> simp <;> field_simp <;> ring
  · ext
    · have := congrArg V3.x hv
      simp only [smul_x, sub_x, add_x] at this ⊢
      field_simp at this ⊢
      linear_combination (-1 : ℝ) * this
    · have := congrArg V3.y hv
      simp only [smul_y, sub_y, add_y] at this ⊢
      field_simp at this ⊢
      linear_combination (-1 : ℝ) * this
    · have := congrArg V3.z hv
      simp only [smul_z, sub_z, add_z] at this ⊢
      field_simp at this ⊢
      linear_combination (-1 : ℝ) * this

end

/-! ## The angle along the motion -/

/-- `Φ t` is the angle that the position has turned by since time zero: it starts from zero and grows at the rate `h / r^2`. -/
structure Turned (γ : ℝ → RV ℝ) (Φ : ℝ → ℝ) : Prop where
  zero : Φ 0 = 0
  deriv : ∀ t, HasDerivAt Φ (norm (angMom (γ 0)) / norm (γ t).r ^ 2) t

section
variable {mu : ℝ} (hmu : 0 < mu) {γ : ℝ → RV ℝ} (hγ : TwoBody mu γ) (hh : angMom (γ 0) ≠ 0)
include hmu hγ hh

theorem turned_exists : ∃ Φ, Turned γ Φ := by
  have hcont : Continuous fun t => norm (angMom (γ 0)) / norm (γ t).r ^ 2 :=
    continuous_const.div ((continuous_iff_continuousAt.2 fun t => (twoBody_norm hmu hγ hh t).continuousAt).pow 2)
      fun t => (pow_pos (twoBody_norm_pos hmu hγ hh t) 2).ne'
  exact ⟨fun t => ∫ u in (0 : ℝ)..t, norm (angMom (γ 0)) / norm (γ u).r ^ 2, intervalIntegral.integral_same, fun t =>
    intervalIntegral.integral_hasDerivAt_right (hcont.intervalIntegrable _ _)
      (hcont.stronglyMeasurableAtFilter _ _) hcont.continuousAt⟩

theorem twoBody_ecc (t : ℝ) : eccVec (γ t) mu = eccVec (γ 0) mu := by
  rw [twoBody_unique hmu hγ hh t]; exact eccVec_stateU hmu hh _

/-- Cosine and sine of the angle between the positions. -/
theorem turned_cos_sin {Φ : ℝ → ℝ} (hΦ : Turned γ Φ) (t : ℝ) :
    dot (γ 0).r (γ t).r = norm (γ 0).r * norm (γ t).r * cos (Φ t) ∧
    dot (cross (γ 0).r (γ t).r) (angMom (γ 0)) = norm (angMom (γ 0)) * norm (γ 0).r * norm (γ t).r * sin (Φ t) := by
  have hR := twoBody_norm_pos hmu hγ hh
  have hH := norm_pos hh
  have hN := twoBody_norm hmu hγ hh
  obtain ⟨x, hx⟩ : ∃ x, x = γ 0 := ⟨_, rfl⟩
  obtain ⟨c, hc⟩ : ∃ c : ℝ → ℝ, c = fun t => dot x.r (γ t).r / norm (γ t).r := ⟨_, rfl⟩
  obtain ⟨s, hs⟩ : ∃ s : ℝ → ℝ, s = fun t => dot (cross x.r (γ t).r) (angMom x) / norm (angMom x) / norm (γ t).r := ⟨_, rfl⟩
  have dc : ∀ t, HasDerivAt c (-(norm (angMom x) / norm (γ t).r ^ 2) * s t) t := by
    intro t
    have h1 : HasDerivAt (fun t => dot x.r (γ t).r) (dot x.r (γ t).v) t := by
      refine ((((hγ.rx t).const_mul x.r.x).add ((hγ.ry t).const_mul x.r.y)).add ((hγ.rz t).const_mul x.r.z)).congr_deriv ?_
      unfold dot; ring
    rw [hc, hs]
    refine (h1.div (hN t) (hR t).ne').congr_deriv ?_
    have hn := norm_sq (γ t).r
    have ha : dot (cross x.r (γ t).r) (angMom x) = dot x.r (γ t).r * dot (γ t).r (γ t).v - dot x.r (γ t).v * norm (γ t).r ^ 2 := by
      rw [hx, ← twoBody_angMom hmu hγ t, hn]; unfold angMom; simp [dot]; ring
    simp only
    rw [ha]
    rw [hx]
    have := (hR t).ne'
    field_simp
    ring
  have ds : ∀ t, HasDerivAt s ((norm (angMom x) / norm (γ t).r ^ 2) * c t) t := by
    intro t
    have h1 : HasDerivAt (fun t => dot (cross x.r (γ t).r) (angMom x)) (dot (cross x.r (γ t).v) (angMom x)) t := by
      refine ((((((hγ.rz t).const_mul x.r.y).sub ((hγ.ry t).const_mul x.r.z)).mul_const (angMom x).x).add
        ((((hγ.rx t).const_mul x.r.z).sub ((hγ.rz t).const_mul x.r.x)).mul_const (angMom x).y)).add
        ((((hγ.ry t).const_mul x.r.x).sub ((hγ.rx t).const_mul x.r.y)).mul_const (angMom x).z)).congr_deriv ?_
      simp [dot]
    rw [hc, hs]
    refine ((h1.div_const _).div (hN t) (hR t).ne').congr_deriv ?_
    have hn := norm_sq (γ t).r
    have hn2 := norm_sq (angMom x)
    have p1 : dot x.r (angMom x) = 0 := dot_cross_self_left _ _
    have ha : dot (cross x.r (γ t).v) (angMom x) * norm (γ t).r ^ 2 - dot (cross x.r (γ t).r) (angMom x) * dot (γ t).r (γ t).v
        = norm (angMom x) ^ 2 * dot x.r (γ t).r := by
      have e : angMom x = angMom (γ t) := by rw [hx, twoBody_angMom hmu hγ t]
      have k : dot (cross x.r (γ t).v) (angMom (γ t)) * dot (γ t).r (γ t).r
          - dot (cross x.r (γ t).r) (angMom (γ t)) * dot (γ t).r (γ t).v
          = dot (angMom (γ t)) (angMom (γ t)) * dot x.r (γ t).r - dot x.r (angMom (γ t)) * dot (γ t).r (angMom (γ t)) := by
        unfold angMom; simp [dot]; ring
      rw [hn, hn2, e, k, ← e, p1]; ring
    simp only
    have h3 := (hR t).ne'
    have h4 : norm (angMom x) ≠ 0 := by rw [hx]; exact hH.ne'
    field_simp
    linear_combination ha
  have hP : ∀ t, HasDerivAt (fun t => c t * cos (Φ t) + s t * sin (Φ t)) 0 t := by
    intro t
    have hf := hΦ.deriv t
    rw [← hx] at hf
    exact (((dc t).mul hf.cos).add ((ds t).mul hf.sin)).congr_deriv (by ring)
  have hQ : ∀ t, HasDerivAt (fun t => s t * cos (Φ t) - c t * sin (Φ t)) 0 t := by
    intro t
    have hf := hΦ.deriv t
    rw [← hx] at hf
    exact (((ds t).mul hf.cos).sub ((dc t).mul hf.sin)).congr_deriv (by ring)
  have p1 := const_of_hasDerivAt_zero hP t
  have q1 := const_of_hasDerivAt_zero hQ t
  simp only [hΦ.zero, cos_zero, sin_zero, mul_one, mul_zero, add_zero, sub_zero] at p1 q1
  have c0 : c 0 = norm x.r := by
    rw [hc]; simp only; rw [← hx, ← norm_mul_self]
    have := hR 0; rw [← hx] at this; field_simp
  have s0 : s 0 = 0 := by
    rw [hs]; simp only; rw [← hx]
    have : dot (cross x.r x.r) (angMom x) = 0 := by simp [dot]; ring
    rw [this]; simp
  rw [c0] at p1
  rw [s0] at q1
  have hcs := sin_sq_add_cos_sq (Φ t)
  have ct : c t = norm x.r * cos (Φ t) := by
    linear_combination cos (Φ t) * p1 - sin (Φ t) * q1 - c t * hcs
  have st : s t = norm x.r * sin (Φ t) := by
    linear_combination sin (Φ t) * p1 + cos (Φ t) * q1 - s t * hcs
  have h3 := (hR t).ne'
  have h4 : norm (angMom x) ≠ 0 := by rw [hx]; exact hH.ne'
  rw [hc] at ct
  rw [hs] at st
  simp only at ct st
  rw [← hx]
  constructor
  · rw [div_eq_iff h3] at ct; rw [ct]; ring
  · rw [div_eq_iff h3, div_eq_iff h4] at st; rw [st]; ring

/-- **C72**: for the angle that the position turns by in the time `t`, the state computed is the one at time `t`. -/
theorem C72_flow {Φ : ℝ → ℝ} (hΦ : Turned γ Φ) (t : ℝ) : thetaState (γ 0) mu (Φ t) = γ t := by
  obtain ⟨h1, h2⟩ := turned_cos_sin hmu hγ hh hΦ t
  exact theta_core hmu hh (twoBody_angMom hmu hγ t) (twoBody_ecc hmu hγ hh t) h1 h2

theorem den_flow {Φ : ℝ → ℝ} (hΦ : Turned γ Φ) (t : ℝ) :
    den (γ 0) mu (cos (Φ t)) (sin (Φ t)) * norm (γ t).r = norm (angMom (γ 0)) ^ 2 / mu * norm (γ 0).r := by
  obtain ⟨h1, h2⟩ := turned_cos_sin hmu hγ hh hΦ t
  exact conic hmu hh (twoBody_angMom hmu hγ t) (twoBody_ecc hmu hγ hh t) h1 h2

end

/-- A function that grows at least at the rate `c` while it is in `[0, θ]` reaches `θ`. -/
theorem reaches {f f' : ℝ → ℝ} (hf : ∀ t, HasDerivAt f (f' t) t) (h0 : f 0 = 0) {θ c : ℝ} (hθ : 0 ≤ θ) (hc : 0 < c)
    (hp : ∀ t, 0 ≤ f' t) (hg : ∀ t, 0 ≤ t → 0 ≤ f t → f t ≤ θ → c ≤ f' t) : ∃ t, 0 ≤ t ∧ f t = θ := by
  have hcont : Continuous f := continuous_iff_continuousAt.2 fun t => (hf t).continuousAt
  have hmono : Monotone f := monotone_of_hasDerivAt_nonneg hf hp
  by_cases hb : ∃ T, 0 ≤ T ∧ θ ≤ f T
  · obtain ⟨T, hT, hT2⟩ := hb
    obtain ⟨t, ht, ht2⟩ := intermediate_value_Icc hT hcont.continuousOn (show θ ∈ Set.Icc (f 0) (f T) by rw [h0]; exact ⟨hθ, hT2⟩)
    exact ⟨t, ht.1, ht2⟩
  · exfalso
    push Not at hb
    have hT : 0 ≤ θ / c := by positivity
    have key : c * (θ / c) - c * 0 ≤ f (θ / c) - f 0 := by
      have hm : MonotoneOn (fun t => f t - c * t) (Set.Icc 0 (θ / c)) := by
        refine monotoneOn_of_deriv_nonneg (convex_Icc _ _) (hcont.sub (continuous_const.mul continuous_id)).continuousOn ?_ ?_
        · intro t _
          exact ((hf t).sub ((hasDerivAt_id t).const_mul c)).differentiableAt.differentiableWithinAt
        · intro t ht
          rw [interior_Icc] at ht
          have hd : HasDerivAt (fun t => f t - c * t) (f' t - c * 1) t := (hf t).sub ((hasDerivAt_id t).const_mul c)
          rw [hd.deriv]
          have := hg t ht.1.le (by rw [← h0]; exact hmono ht.1.le) (hb t ht.1.le).le
          linarith
      have := hm (Set.left_mem_Icc.2 hT) (Set.right_mem_Icc.2 hT) hT
      simp only at this
      linarith
    have := hb _ hT
    rw [h0, mul_div_cancel₀ _ hc.ne'] at key
    linarith

section
variable {mu : ℝ} (hmu : 0 < mu) {γ : ℝ → RV ℝ} (hγ : TwoBody mu γ) (hh : angMom (γ 0) ≠ 0)
include hmu hγ hh

theorem den_continuous (x : RV ℝ) : Continuous fun a => den x mu (cos a) (sin a) := by
  unfold den; fun_prop

/-- The rate is bounded from below while the angle stays in an interval without asymptotes. -/
theorem rate_bound {Φ : ℝ → ℝ} (hΦ : Turned γ Φ) {a b : ℝ} (hab : a ≤ b)
    (hd : ∀ φ, a ≤ φ → φ ≤ b → 0 < den (γ 0) mu (cos φ) (sin φ)) :
    ∃ c, 0 < c ∧ ∀ t, a ≤ Φ t → Φ t ≤ b → c ≤ norm (angMom (γ 0)) / norm (γ t).r ^ 2 := by
  obtain ⟨m, hm, hmin⟩ := isCompact_Icc.exists_isMinOn (Set.nonempty_Icc.2 hab)
    (den_continuous hmu hγ hh (γ 0)).continuousOn (s := Set.Icc a b)
  have hH := norm_pos hh
  have hR := twoBody_norm_pos hmu hγ hh
  have hδ := hd m hm.1 hm.2
  obtain ⟨δ, hδe⟩ : ∃ δ, δ = den (γ 0) mu (cos m) (sin m) := ⟨_, rfl⟩
  rw [← hδe] at hδ
  have hM : 0 < norm (angMom (γ 0)) ^ 2 / mu * norm (γ 0).r / δ := by have := hR 0; positivity
  refine ⟨norm (angMom (γ 0)) / (norm (angMom (γ 0)) ^ 2 / mu * norm (γ 0).r / δ) ^ 2, by positivity, fun t h1 h2 => ?_⟩
  have h3 := hmin (show Φ t ∈ Set.Icc a b from ⟨h1, h2⟩)
  simp only [Set.mem_setOf_eq, ← hδe] at h3
  have h4 := den_flow hmu hγ hh hΦ t
  have h5 : norm (γ t).r ≤ norm (angMom (γ 0)) ^ 2 / mu * norm (γ 0).r / δ := by
    rw [le_div_iff₀ hδ, ← h4, mul_comm]
    exact mul_le_mul_of_nonneg_right h3 (hR t).le
  exact div_le_div_of_nonneg_left hH.le (pow_pos (hR t) 2) (pow_le_pow_left₀ (hR t).le h5 2)

/-- **C72**: every angle is reached by the motion, forwards or backwards in time, unless there is an asymptote before it; the
state computed for it is the one at the moment it is reached. -/
theorem C72_reached {Φ : ℝ → ℝ} (hΦ : Turned γ Φ) (θ : ℝ)
    (hd : ∀ φ, min 0 θ ≤ φ → φ ≤ max 0 θ → 0 < den (γ 0) mu (cos φ) (sin φ)) :
    ∃ t, Φ t = θ ∧ (0 ≤ θ → 0 ≤ t) ∧ (θ ≤ 0 → t ≤ 0) ∧ thetaState (γ 0) mu θ = γ t := by
  have hH := norm_pos hh
  have hR := twoBody_norm_pos hmu hγ hh
  have hpos : ∀ t, 0 < norm (angMom (γ 0)) / norm (γ t).r ^ 2 := fun t => div_pos hH (pow_pos (hR t) 2)
  rcases le_total 0 θ with h | h
  · rw [min_eq_left h, max_eq_right h] at hd
    obtain ⟨c, hc, hb⟩ := rate_bound hmu hγ hh hΦ h hd
    obtain ⟨t, h1, h2⟩ := reaches hΦ.deriv hΦ.zero h hc (fun t => (hpos t).le) (fun t _ a b => hb t a b)
    refine ⟨t, h2, fun _ => h1, fun h' => ?_, h2 ▸ C72_flow hmu hγ hh hΦ t⟩
    have hs : StrictMono Φ := strictMono_of_hasDerivAt_pos hΦ.deriv hpos
    have : Φ t ≤ Φ 0 := by rw [h2, hΦ.zero]; exact h'
    exact hs.le_iff_le.1 this
  · rw [min_eq_right h, max_eq_left h] at hd
    obtain ⟨c, hc, hb⟩ := rate_bound hmu hγ hh hΦ h hd
    have hder : ∀ t, HasDerivAt (fun t => -Φ (-t)) (norm (angMom (γ 0)) / norm (γ (-t)).r ^ 2) t := by
      intro t
      have := ((hΦ.deriv (-t)).scomp t (hasDerivAt_neg t)).neg
      exact this.congr_deriv (by simp)
    obtain ⟨t, h1, h2⟩ := reaches hder (by simp [hΦ.zero]) (θ := -θ) (by linarith) hc (fun t => (hpos _).le)
      (fun t _ a b => hb (-t) (by linarith) (by linarith))
    have h3 : Φ (-t) = θ := by linarith
    refine ⟨-t, h3, fun h' => ?_, fun _ => by linarith, h3 ▸ C72_flow hmu hγ hh hΦ (-t)⟩
    have hs : StrictMono Φ := strictMono_of_hasDerivAt_pos hΦ.deriv hpos
    have : Φ 0 ≤ Φ (-t) := by rw [h3, hΦ.zero]; exact h'
    exact hs.le_iff_le.1 this

/-- **C72**: the function returns one state for each angle, in order: for every angle before the asymptotes, the state of
the motion at the moment the position has turned by it. The state transition matrix is refused. -/
theorem C72_function {Φ : ℝ → ℝ} (hΦ : Turned γ Φ) (thetas : List ℝ) :
    (∃ out, propagateTheta (γ 0) thetas mu false = .ok out ∧ out.length = thetas.length ∧
      ∀ (i : ℕ) (hi : i < thetas.length), (∀ φ, min 0 thetas[i] ≤ φ → φ ≤ max 0 thetas[i] →
        0 < den (γ 0) mu (cos φ) (sin φ)) → ∃ t, Φ t = thetas[i] ∧ out[i]? = some (γ t)) ∧
    propagateTheta (γ 0) thetas mu true = .err .notImplemented := by
  refine ⟨⟨_, if_neg (by simp), by simp, fun i hi hd => ?_⟩, rfl⟩
  obtain ⟨t, h1, -, -, h2⟩ := C72_reached hmu hγ hh hΦ thetas[i] hd
  exact ⟨t, h1, by simp [hi, h2]⟩

omit hγ in
theorem theta_pos {C S : ℝ} (hd : den (γ 0) mu C S ≠ 0) :
    dot (γ 0).r (thetaCS (γ 0) mu C S).r = norm (γ 0).r * (norm (angMom (γ 0)) ^ 2 / mu * norm (γ 0).r / den (γ 0) mu C S) * C ∧
    dot (cross (γ 0).r (thetaCS (γ 0) mu C S).r) (angMom (γ 0)) =
      norm (angMom (γ 0)) * norm (γ 0).r * (norm (angMom (γ 0)) ^ 2 / mu * norm (γ 0).r / den (γ 0) mu C S) * S := by
  have hH := norm_pos hh
  have hR := norm_pos (r_ne_of_h hh)
  generalize γ 0 = x at *
  have hr2 := norm_mul_self x.r
  have hh2 := norm_mul_self (angMom x)
  obtain ⟨Rf, hRf⟩ : ∃ Rf, Rf = norm (angMom x) ^ 2 / mu * norm x.r / den x mu C S := ⟨_, rfl⟩
  have hDR : den x mu C S * Rf = norm (angMom x) ^ 2 / mu * norm x.r := by rw [hRf, mul_div_cancel₀ _ hd]
  rw [← hRf]
  have hr : (thetaCS x mu C S).r = (1 - Rf / (norm (angMom x) ^ 2 / mu) * (1 - C)) • x.r +
      (norm x.r * Rf / norm (angMom x) * S) • x.v := by
    rw [hRf, sq]; rfl
  rw [den_eq hmu hh] at hDR
  rw [hr]
  constructor
  · rw [dot_add, dot_smul, dot_smul, ← hr2]
    generalize dot x.r x.v = d at *
    generalize norm (angMom x) = H at *
    generalize norm x.r = R0 at *
    field_simp at hDR ⊢
    linear_combination (-1 : ℝ) * hDR
  · have : ∀ a b : ℝ, dot (cross x.r (a • x.r + b • x.v)) (angMom x) = b * dot (angMom x) (angMom x) := by
      intro a b; unfold angMom; simp [dot]; ring
    rw [this, ← hh2]
    field_simp

/-- **C72, negation**: beyond an asymptote of a hyperbola the function still returns a state, and the motion never has it. -/
theorem C72_beyond (θ : ℝ) (hd : den (γ 0) mu (cos θ) (sin θ) < 0) (t : ℝ) : γ t ≠ thetaState (γ 0) mu θ := by
  intro he
  obtain ⟨Φ, hΦ⟩ := turned_exists hmu hγ hh
  have hH := norm_pos hh
  have hR := twoBody_norm_pos hmu hγ hh
  obtain ⟨a1, a2⟩ := turned_cos_sin hmu hγ hh hΦ t
  obtain ⟨b1, b2⟩ := theta_pos hmu hh hd.ne
  have hc := den_flow hmu hγ hh hΦ t
  rw [show thetaCS (γ 0) mu (cos θ) (sin θ) = γ t from he.symm] at b1 b2
  have h0 := hR 0
  have ht := hR t
  obtain ⟨Rf, hRf⟩ : ∃ Rf, Rf = norm (angMom (γ 0)) ^ 2 / mu * norm (γ 0).r / den (γ 0) mu (cos θ) (sin θ) := ⟨_, rfl⟩
  have hDR : den (γ 0) mu (cos θ) (sin θ) * Rf = norm (angMom (γ 0)) ^ 2 / mu * norm (γ 0).r := by
    rw [hRf, mul_div_cancel₀ _ hd.ne]
  have hneg : Rf < 0 := by rw [hRf]; exact div_neg_of_pos_of_neg (by positivity) hd
  rw [← hRf] at b1 b2
  have c1 : norm (γ t).r * cos (Φ t) = Rf * cos θ := by
    rw [a1] at b1
    have := mul_left_cancel₀ h0.ne' (show norm (γ 0).r * (norm (γ t).r * cos (Φ t)) = norm (γ 0).r * (Rf * cos θ) by linarith)
    exact this
  have c2 : norm (γ t).r * sin (Φ t) = Rf * sin θ := by
    rw [a2] at b2
    have hne : norm (angMom (γ 0)) * norm (γ 0).r ≠ 0 := by positivity
    exact mul_left_cancel₀ hne (by linarith)
  have hsq : norm (γ t).r ^ 2 = Rf ^ 2 := by
    have e1 := sin_sq_add_cos_sq (Φ t)
    have e2 := sin_sq_add_cos_sq θ
    have : (norm (γ t).r * cos (Φ t)) ^ 2 + (norm (γ t).r * sin (Φ t)) ^ 2 = (Rf * cos θ) ^ 2 + (Rf * sin θ) ^ 2 := by
      rw [c1, c2]
    linear_combination this - norm (γ t).r ^ 2 * e1 + Rf ^ 2 * e2
  have hRR : norm (γ t).r = -Rf := by
    rcases sq_eq_sq_iff_eq_or_eq_neg.1 hsq with h | h
    · linarith
    · exact h
  rw [den_eq hmu hh] at hc hDR
  rw [hRR] at c1 c2 hc
  have d1 : cos (Φ t) = -cos θ := mul_left_cancel₀ hneg.ne (by linarith)
  have d2 : sin (Φ t) = -sin θ := mul_left_cancel₀ hneg.ne (by linarith)
  rw [d1, d2] at hc
  have : norm (γ 0).r * Rf = 0 := by linarith
  rcases mul_eq_zero.1 this with h | h
  · exact h0.ne' h
  · exact hneg.ne h

end

/-- Hypotheses of `C72_reached` for all angles: a circular motion. -/
example (C S : ℝ) : den ⟨⟨1, 0, 0⟩, ⟨0, 1, 0⟩⟩ 1 C S = 1 := by
  simp [den, angMom, V3.norm, dot]

/-- Hypothesis of `C72_beyond`: half a turn on a hyperbola. -/
example : den ⟨⟨1, 0, 0⟩, ⟨0, 2, 0⟩⟩ 1 (cos π) (sin π) < 0 := by
  simp [den, angMom, V3.norm, dot]; norm_num

end Plot
end Kep3
