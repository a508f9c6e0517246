import Verif.Stark.Dyn
import Mathlib.Analysis.SpecialFunctions.Trigonometric.Deriv
import Mathlib.Data.Set.Card

/-!
# C98: the equations of the circular restricted three-body problem

The right-hand side `cr3bp_dyn` (src/ta/cr3bp.cpp:38-61) against Newton's law of gravitation in an inertial frame.
-/

namespace Kep3.Stark
open Kep3 Real V3

/-! ## Newton's law -/

/-- The body of mass `1 - mu`, on its circle around the barycentre. -/
noncomputable def heavy (mu t : ℝ) : V3 ℝ := ⟨-mu * cos t, -mu * sin t, 0⟩
/-- The body of mass `mu`. -/
noncomputable def light (mu t : ℝ) : V3 ℝ := ⟨(1 - mu) * cos t, (1 - mu) * sin t, 0⟩

/-- A curve `X` in the inertial frame obeys Newton's law of gravitation under the attraction of the two bodies and meets neither. -/
structure Newton3 (mu a b : ℝ) (X : ℝ → RV ℝ) : Prop where
  away1 : ∀ t ∈ Set.Icc a b, (X t).r ≠ heavy mu t
  away2 : ∀ t ∈ Set.Icc a b, (X t).r ≠ light mu t
  rx : ∀ t ∈ Set.Icc a b, HasDerivAt (fun t => (X t).r.x) (X t).v.x t
  ry : ∀ t ∈ Set.Icc a b, HasDerivAt (fun t => (X t).r.y) (X t).v.y t
  rz : ∀ t ∈ Set.Icc a b, HasDerivAt (fun t => (X t).r.z) (X t).v.z t
  vx : ∀ t ∈ Set.Icc a b, HasDerivAt (fun t => (X t).v.x)
    (-((1 - mu) / norm ((X t).r - heavy mu t) ^ 3) * ((X t).r - heavy mu t).x - mu / norm ((X t).r - light mu t) ^ 3 * ((X t).r - light mu t).x) t
  vy : ∀ t ∈ Set.Icc a b, HasDerivAt (fun t => (X t).v.y)
    (-((1 - mu) / norm ((X t).r - heavy mu t) ^ 3) * ((X t).r - heavy mu t).y - mu / norm ((X t).r - light mu t) ^ 3 * ((X t).r - light mu t).y) t
  vz : ∀ t ∈ Set.Icc a b, HasDerivAt (fun t => (X t).v.z)
    (-((1 - mu) / norm ((X t).r - heavy mu t) ^ 3) * ((X t).r - heavy mu t).z - mu / norm ((X t).r - light mu t) ^ 3 * ((X t).r - light mu t).z) t

/-- The state in the inertial frame at time `t` of a state in the frame that rotates with the bodies: the frames coincide at time 0. -/
noncomputable def inertial (t : ℝ) (s : RV ℝ) : RV ℝ :=
  ⟨⟨cos t * s.r.x - sin t * s.r.y, sin t * s.r.x + cos t * s.r.y, s.r.z⟩,
    ⟨cos t * (s.v.x - s.r.y) - sin t * (s.v.y + s.r.x), sin t * (s.v.x - s.r.y) + cos t * (s.v.y + s.r.x), s.v.z⟩⟩

/-- The bodies themselves obey Newton's law: each is attracted by the other; their distance is 1. -/
theorem C98_primaries (mu t : ℝ) :
    norm (light mu t - heavy mu t) = 1 ∧ (1 - mu) • heavy mu t + mu • light mu t = 0 ∧
    (∃ V : ℝ → V3 ℝ, HasDerivAt (fun t => (heavy mu t).x) (V t).x t ∧ HasDerivAt (fun t => (heavy mu t).y) (V t).y t ∧
      HasDerivAt (fun t => (V t).x) (mu / norm (light mu t - heavy mu t) ^ 3 * (light mu t - heavy mu t).x) t ∧
      HasDerivAt (fun t => (V t).y) (mu / norm (light mu t - heavy mu t) ^ 3 * (light mu t - heavy mu t).y) t) ∧
    ∃ V : ℝ → V3 ℝ, HasDerivAt (fun t => (light mu t).x) (V t).x t ∧ HasDerivAt (fun t => (light mu t).y) (V t).y t ∧
      HasDerivAt (fun t => (V t).x) ((1 - mu) / norm (light mu t - heavy mu t) ^ 3 * (heavy mu t - light mu t).x) t ∧
      HasDerivAt (fun t => (V t).y) ((1 - mu) / norm (light mu t - heavy mu t) ^ 3 * (heavy mu t - light mu t).y) t := by
  have hn : norm (light mu t - heavy mu t) = 1 := by
    have : V3.dot (light mu t - heavy mu t) (light mu t - heavy mu t) = 1 := by
      simp only [V3.dot, heavy, light, V3.sub_x, V3.sub_y, V3.sub_z]
      linear_combination sin_sq_add_cos_sq t
    unfold V3.norm; rw [this, sqrt_one]
  have hc := hasDerivAt_cos t
  have hs := hasDerivAt_sin t
  refine ⟨hn, ?_, ⟨fun t => ⟨mu * sin t, -mu * cos t, 0⟩, ?_, ?_, ?_, ?_⟩, ⟨fun t => ⟨-(1 - mu) * sin t, (1 - mu) * cos t, 0⟩, ?_, ?_, ?_, ?_⟩⟩
  · ext <;> simp [heavy, light] <;> ring
  · exact (hc.const_mul (-mu)).congr_deriv (by ring)
  · exact (hs.const_mul (-mu)).congr_deriv (by ring)
  · exact (hs.const_mul mu).congr_deriv (by rw [hn]; simp only [heavy, light, V3.sub_x, V3.sub_y]; ring)
  · exact (hc.const_mul (-mu)).congr_deriv (by rw [hn]; simp only [heavy, light, V3.sub_x, V3.sub_y]; ring)
  · exact (hc.const_mul (1 - mu)).congr_deriv (by ring)
  · exact (hs.const_mul (1 - mu)).congr_deriv (by ring)
  · exact (hs.const_mul (-(1 - mu))).congr_deriv (by rw [hn]; simp only [heavy, light, V3.sub_x, V3.sub_y]; ring)
  · exact (hc.const_mul (1 - mu)).congr_deriv (by rw [hn]; simp only [heavy, light, V3.sub_x, V3.sub_y]; ring)

/-! ## The right-hand side -/

/-- When the right-hand side is defined and what it is. -/
theorem cr3bp_iff (mu : ℝ) (s d : RV ℝ) : cr3bpDyn mu s = some d ↔
    √((s.r.x + mu) ^ 2 + s.r.y ^ 2 + s.r.z ^ 2) ≠ 0 ∧ √((s.r.x - (1 - mu)) ^ 2 + s.r.y ^ 2 + s.r.z ^ 2) ≠ 0 ∧ d.r = s.v ∧
    d.v.x = 2 * s.v.y + s.r.x - (1 - mu) * (s.r.x + mu) / √((s.r.x + mu) ^ 2 + s.r.y ^ 2 + s.r.z ^ 2) ^ 3
      - mu * (s.r.x + mu - 1) / √((s.r.x - (1 - mu)) ^ 2 + s.r.y ^ 2 + s.r.z ^ 2) ^ 3 ∧
    d.v.y = -2 * s.v.x + s.r.y - (1 - mu) * s.r.y / √((s.r.x + mu) ^ 2 + s.r.y ^ 2 + s.r.z ^ 2) ^ 3 - mu * s.r.y / √((s.r.x - (1 - mu)) ^ 2 + s.r.y ^ 2 + s.r.z ^ 2) ^ 3 ∧
    d.v.z = -(1 - mu) * s.r.z / √((s.r.x + mu) ^ 2 + s.r.y ^ 2 + s.r.z ^ 2) ^ 3 - mu * s.r.z / √((s.r.x - (1 - mu)) ^ 2 + s.r.y ^ 2 + s.r.z ^ 2) ^ 3 := by
  constructor
  · exact cr3bp_some
  · rintro ⟨h1, h2, er, ex, ey, ez⟩
    unfold cr3bpDyn
    simp only [div?_ok (pow_ne_zero 3 h1), div?_ok (pow_ne_zero 3 h2), Option.bind_eq_bind, Option.bind_some, Option.pure_def, Option.some.injEq]
    rcases d with ⟨dr, ⟨dx, dy, dz⟩⟩
    dsimp only at er ex ey ez
    rw [er, ex, ey, ez]

theorem dist1 (mu t : ℝ) (s : RV ℝ) : norm ((inertial t s).r - heavy mu t) = √((s.r.x + mu) ^ 2 + s.r.y ^ 2 + s.r.z ^ 2) := by
  unfold V3.norm
  congr 1
  simp only [V3.dot, inertial, heavy, V3.sub_x, V3.sub_y, V3.sub_z]
  linear_combination ((s.r.x + mu) ^ 2 + s.r.y ^ 2) * sin_sq_add_cos_sq t

theorem dist2 (mu t : ℝ) (s : RV ℝ) : norm ((inertial t s).r - light mu t) = √((s.r.x - (1 - mu)) ^ 2 + s.r.y ^ 2 + s.r.z ^ 2) := by
  unfold V3.norm
  congr 1
  simp only [V3.dot, inertial, light, V3.sub_x, V3.sub_y, V3.sub_z]
  linear_combination ((s.r.x - (1 - mu)) ^ 2 + s.r.y ^ 2) * sin_sq_add_cos_sq t

theorem away_iff (a b : V3 ℝ) : a ≠ b ↔ norm (a - b) ≠ 0 := by
  rw [Ne, Ne, V3.norm_eq_zero, not_iff_not]
  constructor
  · rintro rfl; ext <;> simp
  · intro h
    have hx := congrArg V3.x h
    have hy := congrArg V3.y h
    have hz := congrArg V3.z h
    simp only [V3.sub_x, V3.sub_y, V3.sub_z, V3.zero_x, V3.zero_y, V3.zero_z] at hx hy hz
    ext <;> linarith

/-- **C98**: a curve follows the equations given to the integrator if and only if, seen from the inertial frame, it obeys Newton's law of gravitation under the attraction of the two bodies. -/
theorem C98_inertial (mu a b : ℝ) (γ : ℝ → RV ℝ) : Solves (cr3bpDyn mu) a b γ ↔ Newton3 mu a b fun t => inertial t (γ t) := by
  constructor
  · intro h
    have key : ∀ t ∈ Set.Icc a b, _ := fun t ht => h.def_ t ht
    constructor
    · intro t ht
      obtain ⟨d, hd, -⟩ := key t ht
      rw [away_iff, dist1]; exact ((cr3bp_iff mu _ d).1 hd).1
    · intro t ht
      obtain ⟨d, hd, -⟩ := key t ht
      rw [away_iff, dist2]; exact ((cr3bp_iff mu _ d).1 hd).2.1
    all_goals
      intro t ht
      obtain ⟨d, hd, hx, hy, hz, hvx, hvy, hvz⟩ := key t ht
      obtain ⟨-, -, er, ex, ey, ez⟩ := (cr3bp_iff mu _ d).1 hd
      have hc := hasDerivAt_cos t
      have hs := hasDerivAt_sin t
      rw [er] at hx hy hz
    · exact ((hc.mul hx).sub (hs.mul hy)).congr_deriv (by simp only [inertial]; ring)
    · exact ((hs.mul hx).add (hc.mul hy)).congr_deriv (by simp only [inertial]; ring)
    · exact hz
    · rw [dist1, dist2]
      refine ((hc.mul (hvx.sub hy)).sub (hs.mul (hvy.add hx))).congr_deriv ?_
      simp only [inertial, heavy, light, V3.sub_x, ex, ey, Pi.add_apply, Pi.sub_apply]
      ring
    · rw [dist1, dist2]
      refine ((hs.mul (hvx.sub hy)).add (hc.mul (hvy.add hx))).congr_deriv ?_
      simp only [inertial, heavy, light, V3.sub_y, ex, ey, Pi.add_apply, Pi.sub_apply]
      ring
    · rw [dist1, dist2]
      refine hvz.congr_deriv ?_
      simp only [inertial, heavy, light, V3.sub_z, ez]
      ring
  · intro h
    refine ⟨fun t ht => ?_⟩
    have h1 := (away_iff _ _).1 (h.away1 t ht)
    have h2 := (away_iff _ _).1 (h.away2 t ht)
    have hx := h.rx t ht
    have hy := h.ry t ht
    have hz := h.rz t ht
    have vx := h.vx t ht
    have vy := h.vy t ht
    have vz := h.vz t ht
    rw [dist1] at h1 vx vy vz
    rw [dist2] at h2 vx vy vz
    have hc := hasDerivAt_cos t
    have hs := hasDerivAt_sin t
    have p : ∀ t, cos t * cos t = 1 - sin t * sin t := fun t => by linear_combination sin_sq_add_cos_sq t
    have i1 : (fun t => (γ t).r.x) = fun t => cos t * (inertial t (γ t)).r.x + sin t * (inertial t (γ t)).r.y := by
      funext t; simp only [inertial]; linear_combination -(γ t).r.x * sin_sq_add_cos_sq t
    have i2 : (fun t => (γ t).r.y) = fun t => cos t * (inertial t (γ t)).r.y - sin t * (inertial t (γ t)).r.x := by
      funext t; simp only [inertial]; linear_combination -(γ t).r.y * sin_sq_add_cos_sq t
    have i3 : (fun t => (γ t).v.x) = fun t => cos t * (inertial t (γ t)).v.x + sin t * (inertial t (γ t)).v.y
        + (cos t * (inertial t (γ t)).r.y - sin t * (inertial t (γ t)).r.x) := by
      funext t; simp only [inertial]; linear_combination -((γ t).v.x - (γ t).r.y) * sin_sq_add_cos_sq t - (γ t).r.y * sin_sq_add_cos_sq t
    have i4 : (fun t => (γ t).v.y) = fun t => cos t * (inertial t (γ t)).v.y - sin t * (inertial t (γ t)).v.x
        - (cos t * (inertial t (γ t)).r.x + sin t * (inertial t (γ t)).r.y) := by
      funext t; simp only [inertial]; linear_combination -((γ t).v.y + (γ t).r.x) * sin_sq_add_cos_sq t + (γ t).r.x * sin_sq_add_cos_sq t
    refine ⟨⟨(γ t).v, ⟨_, _, _⟩⟩, (cr3bp_iff mu _ _).2 ⟨h1, h2, rfl, rfl, rfl, rfl⟩, ?_, ?_, hz, ?_, ?_, ?_⟩
    · rw [i1]
      refine ((hc.mul hx).add (hs.mul hy)).congr_deriv ?_
      simp only [inertial]; linear_combination (γ t).v.x * sin_sq_add_cos_sq t
    · rw [i2]
      refine ((hc.mul hy).sub (hs.mul hx)).congr_deriv ?_
      simp only [inertial]; linear_combination (γ t).v.y * sin_sq_add_cos_sq t
    · rw [i3]
      refine (((hc.mul vx).add (hs.mul vy)).add ((hc.mul hy).sub (hs.mul hx))).congr_deriv ?_
      simp only [inertial, heavy, light, V3.sub_x, V3.sub_y]
      generalize √(((γ t).r.x + mu) ^ 2 + (γ t).r.y ^ 2 + (γ t).r.z ^ 2) ^ 3 = R1
      generalize √(((γ t).r.x - (1 - mu)) ^ 2 + (γ t).r.y ^ 2 + (γ t).r.z ^ 2) ^ 3 = R2
      linear_combination (2 * (γ t).v.y + (γ t).r.x - (1 - mu) * ((γ t).r.x + mu) / R1 - mu * ((γ t).r.x + mu - 1) / R2) * sin_sq_add_cos_sq t
    · rw [i4]
      refine (((hc.mul vy).sub (hs.mul vx)).sub ((hc.mul hx).add (hs.mul hy))).congr_deriv ?_
      simp only [inertial, heavy, light, V3.sub_x, V3.sub_y]
      generalize √(((γ t).r.x + mu) ^ 2 + (γ t).r.y ^ 2 + (γ t).r.z ^ 2) ^ 3 = R1
      generalize √(((γ t).r.x - (1 - mu)) ^ 2 + (γ t).r.y ^ 2 + (γ t).r.z ^ 2) ^ 3 = R2
      linear_combination (-2 * (γ t).v.x + (γ t).r.y - (1 - mu) * (γ t).r.y / R1 - mu * (γ t).r.y / R2) * sin_sq_add_cos_sq t
    · refine vz.congr_deriv ?_
      simp only [inertial, heavy, light, V3.sub_z]
      ring

/-! ## Consequences -/

/-- Without the second body: the motion seen from the inertial frame is a two-body motion. -/
theorem C98_kepler {γ : ℝ → RV ℝ} (h : ∀ T, Solves (cr3bpDyn 0) (-T) T γ) : TwoBody 1 fun t => inertial t (γ t) := by
  have mem : ∀ t : ℝ, t ∈ Set.Icc (-|t|) |t| := fun t => ⟨neg_abs_le t, le_abs_self t⟩
  have N := fun T => (C98_inertial 0 (-T) T γ).1 (h T)
  have e : ∀ t, heavy 0 t = 0 := fun t => by ext <;> simp [heavy]
  have e' : ∀ v : V3 ℝ, v - 0 = v := fun v => by ext <;> simp
  constructor <;> intro t
  · exact (N |t|).rx t (mem t)
  · exact (N |t|).ry t (mem t)
  · exact (N |t|).rz t (mem t)
  · have := (N |t|).vx t (mem t)
    rw [e, e'] at this
    exact this.congr_deriv (by ring)
  · have := (N |t|).vy t (mem t)
    rw [e, e'] at this
    exact this.congr_deriv (by ring)
  · have := (N |t|).vz t (mem t)
    rw [e, e'] at this
    exact this.congr_deriv (by ring)

/-- The reflection in the plane that contains the axis and both bodies. -/
def mirror (s : RV ℝ) : RV ℝ := ⟨⟨s.r.x, -s.r.y, s.r.z⟩, ⟨-s.v.x, s.v.y, -s.v.z⟩⟩

/-- Motions reflected in the plane of the axis and the bodies, and run backwards, are motions. -/
theorem C98_mirror {mu a b : ℝ} {γ : ℝ → RV ℝ} (h : Solves (cr3bpDyn mu) a b γ) : Solves (cr3bpDyn mu) (-b) (-a) fun t => mirror (γ (-t)) := by
  refine ⟨fun t ht => ?_⟩
  obtain ⟨d, hd, hx, hy, hz, hvx, hvy, hvz⟩ := h.def_ (-t) ⟨by linarith [ht.2], by linarith [ht.1]⟩
  obtain ⟨h1, h2, er, ex, ey, ez⟩ := (cr3bp_iff mu _ d).1 hd
  have hn := hasDerivAt_neg t
  have cx : HasDerivAt (fun t => (γ (-t)).r.x) (d.r.x * -1) t := hx.comp t hn
  have cy : HasDerivAt (fun t => (γ (-t)).r.y) (d.r.y * -1) t := hy.comp t hn
  have cz : HasDerivAt (fun t => (γ (-t)).r.z) (d.r.z * -1) t := hz.comp t hn
  have cvx : HasDerivAt (fun t => (γ (-t)).v.x) (d.v.x * -1) t := hvx.comp t hn
  have cvy : HasDerivAt (fun t => (γ (-t)).v.y) (d.v.y * -1) t := hvy.comp t hn
  have cvz : HasDerivAt (fun t => (γ (-t)).v.z) (d.v.z * -1) t := hvz.comp t hn
  rw [er] at cx cy cz
  rw [ex] at cvx
  rw [ey] at cvy
  rw [ez] at cvz
  refine ⟨⟨(mirror (γ (-t))).v, ⟨_, _, _⟩⟩, (cr3bp_iff mu _ _).2 ⟨by simpa [mirror] using h1, by simpa [mirror] using h2, rfl, rfl, rfl, rfl⟩, ?_, ?_, ?_, ?_, ?_, ?_⟩
  · exact cx.congr_deriv (by simp [mirror])
  · exact cy.neg.congr_deriv (by simp [mirror])
  · exact cz.congr_deriv (by simp [mirror])
  · exact cvx.neg.congr_deriv (by simp only [mirror, neg_sq]; ring)
  · exact cvy.congr_deriv (by simp only [mirror, neg_sq]; ring)
  · exact cvz.neg.congr_deriv (by simp only [mirror, neg_sq]; ring)

/-! ## Equilibria -/

/-- The acceleration on the axis. -/
noncomputable def axisF (mu x : ℝ) : ℝ := x - (1 - mu) * (x + mu) / |x + mu| ^ 3 - mu * (x + mu - 1) / |x - (1 - mu)| ^ 3

theorem axis_right {c : ℝ} (hc : c ≠ 0) : c / |c| ^ 3 = if 0 < c then 1 / c ^ 2 else -(1 / c ^ 2) := by
  split_ifs with h
  · rw [abs_of_pos h]; field_simp
  · have h : c < 0 := lt_of_le_of_ne (not_lt.1 h) hc
    rw [abs_of_neg h]; field_simp

theorem axisF_eq {mu x : ℝ} (h1 : x + mu ≠ 0) (h2 : x - (1 - mu) ≠ 0) : axisF mu x =
    x - (1 - mu) * (if 0 < x + mu then 1 / (x + mu) ^ 2 else -(1 / (x + mu) ^ 2))
      - mu * (if 0 < x - (1 - mu) then 1 / (x - (1 - mu)) ^ 2 else -(1 / (x - (1 - mu)) ^ 2)) := by
  rw [← axis_right h1, ← axis_right h2]
  unfold axisF
  rw [show x + mu - 1 = x - (1 - mu) by ring]
  ring

/-- An equilibrium: a state of rest without acceleration. -/
theorem equilibrium_iff {mu : ℝ} (h0 : 0 < mu) (h1 : mu < 1) (s : RV ℝ) : cr3bpDyn mu s = some ⟨⟨0, 0, 0⟩, ⟨0, 0, 0⟩⟩ ↔
    s.v = ⟨0, 0, 0⟩ ∧ s.r.z = 0 ∧ ((s.r.y = 0 ∧ s.r.x + mu ≠ 0 ∧ s.r.x - (1 - mu) ≠ 0 ∧ axisF mu s.r.x = 0) ∨ (s.r.x = 1 / 2 - mu ∧ (s.r.y = √3 / 2 ∨ s.r.y = -(√3 / 2)))) := by
  have q3 : √3 ^ 2 = (3 : ℝ) := sq_sqrt (by norm_num)
  rw [cr3bp_iff]
  constructor
  · rintro ⟨n1, n2, er, ex, ey, ez⟩
    dsimp only at er ex ey ez
    have hv := er.symm
    rw [hv] at ex ey
    dsimp only at ex ey
    obtain ⟨R1, hR1⟩ : ∃ R, R = √((s.r.x + mu) ^ 2 + s.r.y ^ 2 + s.r.z ^ 2) := ⟨_, rfl⟩
    obtain ⟨R2, hR2⟩ : ∃ R, R = √((s.r.x - (1 - mu)) ^ 2 + s.r.y ^ 2 + s.r.z ^ 2) := ⟨_, rfl⟩
    rw [← hR1] at n1 ex ey ez
    rw [← hR2] at n2 ex ey ez
    have p1 : 0 < R1 := lt_of_le_of_ne (by rw [hR1]; exact sqrt_nonneg _) n1.symm
    have p2 : 0 < R2 := lt_of_le_of_ne (by rw [hR2]; exact sqrt_nonneg _) n2.symm
    have hz : s.r.z = 0 := by
      have : ((1 - mu) / R1 ^ 3 + mu / R2 ^ 3) * s.r.z = 0 := by linear_combination ez
      rcases mul_eq_zero.1 this with h | h
      · have : 0 < (1 - mu) / R1 ^ 3 := div_pos (by linarith) (by positivity)
        have : 0 < mu / R2 ^ 3 := by positivity
        linarith
      · exact h
    refine ⟨hv, hz, ?_⟩
    by_cases hy : s.r.y = 0
    · left
      rw [hy, hz] at hR1 hR2
      norm_num at hR1 hR2
      rw [sqrt_sq_eq_abs] at hR1 hR2
      refine ⟨hy, fun h => n1 (by rw [hR1, h, abs_zero]), fun h => n2 (by rw [hR2, h, abs_zero]), ?_⟩
      unfold axisF
      rw [← hR1, ← hR2]
      linarith
    · right
      have hS : (1 - mu) / R1 ^ 3 + mu / R2 ^ 3 = 1 := by
        have : (1 - ((1 - mu) / R1 ^ 3 + mu / R2 ^ 3)) * s.r.y = 0 := by linear_combination -ey
        rcases mul_eq_zero.1 this with h | h
        · linarith
        · exact absurd h hy
      have hd : 1 / R1 ^ 3 = 1 / R2 ^ 3 := by
        have : mu * (1 - mu) * (1 / R1 ^ 3 - 1 / R2 ^ 3) = 0 := by linear_combination ex + s.r.x * -hS
        rcases mul_eq_zero.1 this with h | h
        · rcases mul_eq_zero.1 h with h | h <;> linarith
        · linarith
      have hone : 1 / R1 ^ 3 = 1 := by linear_combination hS + mu * hd
      have r1 : R1 = 1 := by
        have : R1 ^ 3 = 1 := by field_simp at hone; linarith
        exact (pow_eq_one_iff_of_nonneg p1.le (by norm_num)).1 this
      have r2 : R2 = 1 := by
        have : R2 ^ 3 = 1 := by rw [hd] at hone; field_simp at hone; linarith
        exact (pow_eq_one_iff_of_nonneg p2.le (by norm_num)).1 this
      have s1 : (s.r.x + mu) ^ 2 + s.r.y ^ 2 + s.r.z ^ 2 = 1 := by
        have := sq_sqrt (show 0 ≤ (s.r.x + mu) ^ 2 + s.r.y ^ 2 + s.r.z ^ 2 by positivity)
        rw [← hR1, r1] at this; linarith
      have s2 : (s.r.x - (1 - mu)) ^ 2 + s.r.y ^ 2 + s.r.z ^ 2 = 1 := by
        have := sq_sqrt (show 0 ≤ (s.r.x - (1 - mu)) ^ 2 + s.r.y ^ 2 + s.r.z ^ 2 by positivity)
        rw [← hR2, r2] at this; linarith
      have hx : s.r.x = 1 / 2 - mu := by linarith
      refine ⟨hx, ?_⟩
      rw [hx, hz] at s1
      have : (s.r.y - √3 / 2) * (s.r.y + √3 / 2) = 0 := by linear_combination s1 - q3 / 4
      rcases mul_eq_zero.1 this with h | h
      · left; linarith
      · right; linarith
  · rintro ⟨hv, hz, h⟩
    rw [hv, hz]
    dsimp only
    rcases h with ⟨hy, n1, n2, hF⟩ | ⟨hx, hy⟩
    · rw [hy]
      norm_num
      rw [sqrt_sq_eq_abs, sqrt_sq_eq_abs]
      refine ⟨abs_ne_zero.2 n1, abs_ne_zero.2 n2, ?_⟩
      unfold axisF at hF
      linarith
    · have y2 : s.r.y ^ 2 = 3 / 4 := by
        rcases hy with h | h <;> rw [h]
        · linear_combination q3 / 4
        · linear_combination q3 / 4
      rw [hx, y2]
      rw [show (1 / 2 - mu + mu) ^ 2 + 3 / 4 + (0 : ℝ) ^ 2 = 1 by ring, show (1 / 2 - mu - (1 - mu)) ^ 2 + 3 / 4 + (0 : ℝ) ^ 2 = 1 by ring, sqrt_one]
      refine ⟨one_ne_zero, one_ne_zero, rfl, by ring, by ring, by ring⟩

section
variable {mu : ℝ} (h0 : 0 < mu) (h1 : mu < 1)
include h0 h1

/-- Left of both bodies the acceleration grows along the axis. -/
theorem axis_left_mono {x y : ℝ} (hxy : x < y) (hy : y < -mu) : axisF mu x < axisF mu y := by
  rw [axisF_eq (by linarith) (by linarith), axisF_eq (by linarith) (by linarith), if_neg (by linarith), if_neg (by linarith), if_neg (by linarith), if_neg (by linarith)]
  have a : 1 / (x + mu) ^ 2 ≤ 1 / (y + mu) ^ 2 := one_div_le_one_div_of_le (by nlinarith) (by nlinarith)
  have b : 1 / (x - (1 - mu)) ^ 2 ≤ 1 / (y - (1 - mu)) ^ 2 := one_div_le_one_div_of_le (by nlinarith) (by nlinarith)
  have := mul_le_mul_of_nonneg_left a (show 0 ≤ 1 - mu by linarith)
  have := mul_le_mul_of_nonneg_left b h0.le
  linarith

/-- Between the bodies. -/
theorem axis_mid_mono {x y : ℝ} (hx : -mu < x) (hxy : x < y) (hy : y < 1 - mu) : axisF mu x < axisF mu y := by
  rw [axisF_eq (by linarith) (by linarith), axisF_eq (by linarith) (by linarith), if_pos (by linarith), if_neg (by linarith), if_pos (by linarith), if_neg (by linarith)]
  have a : 1 / (y + mu) ^ 2 ≤ 1 / (x + mu) ^ 2 := one_div_le_one_div_of_le (by nlinarith) (by nlinarith)
  have b : 1 / (x - (1 - mu)) ^ 2 ≤ 1 / (y - (1 - mu)) ^ 2 := one_div_le_one_div_of_le (by nlinarith) (by nlinarith)
  have := mul_le_mul_of_nonneg_left a (show 0 ≤ 1 - mu by linarith)
  have := mul_le_mul_of_nonneg_left b h0.le
  linarith

/-- Right of both. -/
theorem axis_right_mono {x y : ℝ} (hx : 1 - mu < x) (hxy : x < y) : axisF mu x < axisF mu y := by
  rw [axisF_eq (by linarith) (by linarith), axisF_eq (by linarith) (by linarith), if_pos (by linarith), if_pos (by linarith), if_pos (by linarith), if_pos (by linarith)]
  have a : 1 / (y + mu) ^ 2 ≤ 1 / (x + mu) ^ 2 := one_div_le_one_div_of_le (by nlinarith) (by nlinarith)
  have b : 1 / (y - (1 - mu)) ^ 2 ≤ 1 / (x - (1 - mu)) ^ 2 := one_div_le_one_div_of_le (by nlinarith) (by nlinarith)
  have := mul_le_mul_of_nonneg_left a (show 0 ≤ 1 - mu by linarith)
  have := mul_le_mul_of_nonneg_left b h0.le
  linarith

omit h0 h1 in
theorem axis_cont {p q : ℝ} (hp : ∀ x ∈ Set.Icc p q, x + mu ≠ 0 ∧ x - (1 - mu) ≠ 0) : ContinuousOn (axisF mu) (Set.Icc p q) := by
  unfold axisF
  refine ContinuousOn.sub (ContinuousOn.sub continuousOn_id (ContinuousOn.div (by fun_prop) (by fun_prop) fun x hx => ?_)) (ContinuousOn.div (by fun_prop) (by fun_prop) fun x hx => ?_)
  · exact pow_ne_zero _ (abs_ne_zero.2 (hp x hx).1)
  · exact pow_ne_zero _ (abs_ne_zero.2 (hp x hx).2)

theorem axis_left_root : ∃ x, x < -mu ∧ axisF mu x = 0 := by
  obtain ⟨δ, hδ, δ1⟩ : ∃ δ : ℝ, 0 < δ ∧ δ ≤ 1 ∧ δ ^ 2 * 2 ≤ 1 - mu := by
    refine ⟨(1 - mu) / 2, by linarith, by linarith, by nlinarith⟩
  have l : axisF mu (-3) ≤ 0 := by
    rw [axisF_eq (by linarith) (by linarith), if_neg (by linarith), if_neg (by linarith)]
    have a : 1 / (-3 + mu) ^ 2 ≤ 1 := by rw [div_le_one (by nlinarith)]; nlinarith
    have b : 1 / (-3 - (1 - mu)) ^ 2 ≤ 1 := by rw [div_le_one (by nlinarith)]; nlinarith
    nlinarith
  have r : 0 ≤ axisF mu (-mu - δ) := by
    rw [axisF_eq (by linarith) (by linarith), if_neg (by linarith), if_neg (by linarith)]
    have e : -mu - δ + mu = -δ := by ring
    rw [e, neg_sq]
    have a : 2 ≤ (1 - mu) * (1 / δ ^ 2) := by rw [mul_one_div, le_div_iff₀ (by positivity)]; linarith
    have b : 0 ≤ mu * (1 / (-mu - δ - (1 - mu)) ^ 2) := by positivity
    linarith
  obtain ⟨x, hx, hx0⟩ := intermediate_value_Icc (show -3 ≤ -mu - δ by linarith) (axis_cont (mu := mu) (p := -3) (q := -mu - δ) fun x hx => ⟨by linarith [hx.2], by linarith [hx.2]⟩)
    (show (0 : ℝ) ∈ Set.Icc _ _ from ⟨l, r⟩)
  exact ⟨x, by linarith [hx.2], hx0⟩

theorem axis_mid_root : ∃ x, -mu < x ∧ x < 1 - mu ∧ axisF mu x = 0 := by
  obtain ⟨δ, hδ, δ1, δ2, δ3⟩ : ∃ δ : ℝ, 0 < δ ∧ δ ≤ 1 / 4 ∧ δ ^ 2 * 4 ≤ 1 - mu ∧ δ ^ 2 * 4 ≤ mu := by
    refine ⟨mu * (1 - mu) / 4, ?_, ?_, ?_, ?_⟩
    · have := mul_pos h0 (show 0 < 1 - mu by linarith); linarith
    · nlinarith
    · nlinarith [mul_pos h0 (show 0 < 1 - mu by linarith), mul_pos (mul_pos h0 h0) (show 0 < 1 - mu by linarith)]
    · nlinarith [mul_pos h0 (show 0 < 1 - mu by linarith), mul_pos (mul_pos h0 h0) (show 0 < 1 - mu by linarith)]
  have l : axisF mu (-mu + δ) ≤ 0 := by
    rw [axisF_eq (by linarith) (by linarith), if_pos (by linarith), if_neg (by linarith)]
    rw [show -mu + δ + mu = δ by ring]
    have a : 4 ≤ (1 - mu) * (1 / δ ^ 2) := by rw [mul_one_div, le_div_iff₀ (by positivity)]; linarith
    have b : 1 / (-mu + δ - (1 - mu)) ^ 2 ≤ 2 := by
      rw [div_le_iff₀ (by nlinarith)]; nlinarith
    nlinarith
  have r : 0 ≤ axisF mu (1 - mu - δ) := by
    rw [axisF_eq (by linarith) (by linarith), if_pos (by linarith), if_neg (by linarith)]
    rw [show 1 - mu - δ - (1 - mu) = -δ by ring, neg_sq]
    have a : 4 ≤ mu * (1 / δ ^ 2) := by rw [mul_one_div, le_div_iff₀ (by positivity)]; linarith
    have b : 1 / (1 - mu - δ + mu) ^ 2 ≤ 2 := by
      rw [div_le_iff₀ (by nlinarith)]; nlinarith
    nlinarith
  obtain ⟨x, hx, hx0⟩ := intermediate_value_Icc (show -mu + δ ≤ 1 - mu - δ by linarith)
    (axis_cont (mu := mu) (p := -mu + δ) (q := 1 - mu - δ) fun x hx => ⟨by linarith [hx.1], by linarith [hx.2]⟩) (show (0 : ℝ) ∈ Set.Icc _ _ from ⟨l, r⟩)
  exact ⟨x, by linarith [hx.1], by linarith [hx.2], hx0⟩

theorem axis_right_root : ∃ x, 1 - mu < x ∧ axisF mu x = 0 := by
  obtain ⟨δ, hδ, δ1, δ2⟩ : ∃ δ : ℝ, 0 < δ ∧ δ ≤ 1 ∧ δ ^ 2 * 2 ≤ mu := ⟨mu / 2, by linarith, by linarith, by nlinarith⟩
  have l : axisF mu (1 - mu + δ) ≤ 0 := by
    rw [axisF_eq (by linarith) (by linarith), if_pos (by linarith), if_pos (by linarith)]
    rw [show 1 - mu + δ - (1 - mu) = δ by ring]
    have a : 2 ≤ mu * (1 / δ ^ 2) := by rw [mul_one_div, le_div_iff₀ (by positivity)]; linarith
    have b : 0 ≤ (1 - mu) * (1 / (1 - mu + δ + mu) ^ 2) := mul_nonneg (by linarith) (by positivity)
    linarith
  have r : 0 ≤ axisF mu 3 := by
    rw [axisF_eq (by linarith) (by linarith), if_pos (by linarith), if_pos (by linarith)]
    have a : 1 / (3 + mu) ^ 2 ≤ 1 := by rw [div_le_one (by nlinarith)]; nlinarith
    have b : 1 / (3 - (1 - mu)) ^ 2 ≤ 1 := by rw [div_le_one (by nlinarith)]; nlinarith
    nlinarith
  obtain ⟨x, hx, hx0⟩ := intermediate_value_Icc (show 1 - mu + δ ≤ 3 by linarith) (axis_cont (mu := mu) (p := 1 - mu + δ) (q := 3) fun x hx => ⟨by linarith [hx.1], by linarith [hx.1]⟩)
    (show (0 : ℝ) ∈ Set.Icc _ _ from ⟨l, r⟩)
  exact ⟨x, by linarith [hx.1], hx0⟩

/-- **C98, equilibria**: there are exactly five states without acceleration: the two triangular ones and one on each of the three parts of the axis. -/
theorem C98_five : ∃ x1 x2 x3 : ℝ, x3 < -mu ∧ -mu < x1 ∧ x1 < 1 - mu ∧ 1 - mu < x2 ∧
    {s | cr3bpDyn mu s = some ⟨⟨0, 0, 0⟩, ⟨0, 0, 0⟩⟩} = (fun r : V3 ℝ => (⟨r, ⟨0, 0, 0⟩⟩ : RV ℝ)) ''
      {⟨x1, 0, 0⟩, ⟨x2, 0, 0⟩, ⟨x3, 0, 0⟩, ⟨1 / 2 - mu, √3 / 2, 0⟩, ⟨1 / 2 - mu, -(√3 / 2), 0⟩} := by
  obtain ⟨x3, l3, e3⟩ := axis_left_root h0 h1
  obtain ⟨x1, l1, g1, e1⟩ := axis_mid_root h0 h1
  obtain ⟨x2, l2, e2⟩ := axis_right_root h0 h1
  refine ⟨x1, x2, x3, l3, l1, g1, l2, ?_⟩
  ext s
  rw [Set.mem_setOf_eq, equilibrium_iff h0 h1]
  obtain ⟨⟨x, y, z⟩, v⟩ := s
  simp only [Set.mem_image, Set.mem_insert_iff, Set.mem_singleton_iff, RV.mk.injEq, exists_eq_or_imp, exists_eq_left, V3.mk.injEq]
  constructor
  · rintro ⟨rfl, rfl, ⟨rfl, n1, n2, hF⟩ | ⟨rfl, rfl | rfl⟩⟩
    · rcases lt_or_gt_of_ne n1 with h | h
      · have : x3 = x := by
          rcases lt_trichotomy x x3 with g | g | g
          · have := axis_left_mono h0 h1 g l3; linarith
          · exact g.symm
          · have := axis_left_mono h0 h1 g (by linarith); linarith
        simp [this]
      · rcases lt_or_gt_of_ne n2 with k | k
        · have : x1 = x := by
            rcases lt_trichotomy x x1 with g | g | g
            · have := axis_mid_mono h0 h1 (by linarith) g g1; linarith
            · exact g.symm
            · have := axis_mid_mono h0 h1 l1 g (by linarith); linarith
          simp [this]
        · have : x2 = x := by
            rcases lt_trichotomy x x2 with g | g | g
            · have := axis_right_mono h0 h1 (by linarith) g; linarith
            · exact g.symm
            · have := axis_right_mono h0 h1 l2 g; linarith
          simp [this]
    · simp
    · simp
  · rintro (⟨⟨rfl, rfl, rfl⟩, rfl⟩ | ⟨⟨rfl, rfl, rfl⟩, rfl⟩ | ⟨⟨rfl, rfl, rfl⟩, rfl⟩ | ⟨⟨rfl, rfl, rfl⟩, rfl⟩ | ⟨⟨rfl, rfl, rfl⟩, rfl⟩)
    · exact ⟨rfl, rfl, .inl ⟨rfl, by linarith, by linarith, e1⟩⟩
    · exact ⟨rfl, rfl, .inl ⟨rfl, by linarith, by linarith, e2⟩⟩
    · exact ⟨rfl, rfl, .inl ⟨rfl, by linarith, by linarith, e3⟩⟩
    · exact ⟨rfl, rfl, .inr ⟨rfl, .inl rfl⟩⟩
    · exact ⟨rfl, rfl, .inr ⟨rfl, .inr rfl⟩⟩

end

/-- The Earth and the Moon. -/
example : ∃ γ : ℝ → RV ℝ, Solves (cr3bpDyn 0.012) 0 10 γ ∧ Newton3 0.012 0 10 fun t => inertial t (γ t) := by
  have h : Solves (cr3bpDyn 0.012) 0 10 fun _ => ⟨⟨1 / 2 - 0.012, √3 / 2, 0⟩, ⟨0, 0, 0⟩⟩ := by
    refine ⟨fun t _ => ⟨⟨⟨0, 0, 0⟩, ⟨0, 0, 0⟩⟩, (equilibrium_iff (by norm_num) (by norm_num) _).2 ⟨rfl, rfl, .inr ⟨rfl, .inl rfl⟩⟩, ?_, ?_, ?_, ?_, ?_, ?_⟩⟩
    all_goals exact hasDerivAt_const _ _
  exact ⟨_, h, (C98_inertial _ _ _ _).1 h⟩

end Kep3.Stark
