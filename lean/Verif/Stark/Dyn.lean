/-
The equations of motion handed to heyoka (src/ta/stark.cpp 42-70, src/ta/cr3bp.cpp 38-61) and the
state derivative of the high-fidelity leg (src/leg/sims_flanagan_hf.cpp 498-528), over the reals,
and property C65.  `none` stands for a division by zero (an infinity or a NaN in the code).
-/
import Verif.HF.Model
import Verif.RealOps
import Verif.Constants
import Verif.Lagr.Props21
import Mathlib.Analysis.SpecialFunctions.Pow.Real
import Mathlib.Analysis.SpecialFunctions.Log.Deriv
import Mathlib.Analysis.Calculus.MeanValue

namespace Kep3.Stark

open Kep3 Real
open Kep3.HF (St)

/-- `pow(r2, -3. / 2)` for a nonnegative base. -/
noncomputable def pow32? (r2 : ℝ) : Option ℝ := if r2 = 0 then none else some (r2 ^ (-3 / 2 : ℝ))

/-- `stark_dyn`, src/ta/stark.cpp 42-70: parameters `mu`, `veff`, thrust `u`. -/
noncomputable def starkDyn (mu veff : ℝ) (u : V3 ℝ) (s : St ℝ) : Option (St ℝ) := do
  let r2 := s.rv.r.x ^ 2 + s.rv.r.y ^ 2 + s.rv.r.z ^ 2
  let uNorm := √(u.x ^ 2 + u.y ^ 2 + u.z ^ 2)
  let p ← pow32? r2
  let ax := -mu * p * s.rv.r.x + (← div? u.x s.m)
  let ay := -mu * p * s.rv.r.y + (← div? u.y s.m)
  let az := -mu * p * s.rv.r.z + (← div? u.z s.m)
  let mdot ← if uNorm = 0 then some 0 else div? (-uNorm) veff
  return ⟨⟨⟨s.rv.v.x, s.rv.v.y, s.rv.v.z⟩, ⟨ax, ay, az⟩⟩, mdot⟩

/-- `cr3bp_dyn`, src/ta/cr3bp.cpp 38-61. -/
noncomputable def cr3bpDyn (mu : ℝ) (s : RV ℝ) : Option (RV ℝ) := do
  let r1 := √((s.r.x + mu) ^ 2 + s.r.y ^ 2 + s.r.z ^ 2)
  let r2 := √((s.r.x - (1 - mu)) ^ 2 + s.r.y ^ 2 + s.r.z ^ 2)
  let ax := 2 * s.v.y + s.r.x - (← div? ((1 - mu) * (s.r.x + mu)) (r1 ^ 3))
    - (← div? (mu * (s.r.x + mu - 1)) (r2 ^ 3))
  let ay := -2 * s.v.x + s.r.y - (← div? ((1 - mu) * s.r.y) (r1 ^ 3)) - (← div? (mu * s.r.y) (r2 ^ 3))
  let az := (← div? (-(1 - mu) * s.r.z) (r1 ^ 3)) - (← div? (mu * s.r.z) (r2 ^ 3))
  return ⟨⟨s.v.x, s.v.y, s.v.z⟩, ⟨ax, ay, az⟩⟩

/-- `sims_flanagan_hf::get_state_derivative`, src/leg/sims_flanagan_hf.cpp 498-528. -/
noncomputable def hfDerivative (maxThrust isp mu : ℝ) (s : St ℝ) (throttles : V3 ℝ) : Option (St ℝ) := do
  let u : V3 ℝ := ⟨throttles.x * maxThrust, throttles.y * maxThrust, throttles.z * maxThrust⟩
  let r2 := ((0 + s.rv.r.x ^ 2) + s.rv.r.y ^ 2) + s.rv.r.z ^ 2
  let veff := isp * G0
  let uNorm := √(((0 + u.x ^ 2) + u.y ^ 2) + u.z ^ 2)
  let p ← pow32? r2
  let ax := -mu * p * s.rv.r.x + (← div? u.x s.m)
  let ay := -mu * p * s.rv.r.y + (← div? u.y s.m)
  let az := -mu * p * s.rv.r.z + (← div? u.z s.m)
  let mdot ← if uNorm ≠ 0 then div? (-uNorm) veff else some 0
  return ⟨⟨⟨s.rv.v.x, s.rv.v.y, s.rv.v.z⟩, ⟨ax, ay, az⟩⟩, mdot⟩

/-- A curve that follows a vector field on a time span; the field is defined all along. -/
structure Solves (f : RV ℝ → Option (RV ℝ)) (a b : ℝ) (γ : ℝ → RV ℝ) : Prop where
  def_ : ∀ t ∈ Set.Icc a b, ∃ d, f (γ t) = some d ∧
    HasDerivAt (fun t => (γ t).r.x) d.r.x t ∧ HasDerivAt (fun t => (γ t).r.y) d.r.y t ∧
    HasDerivAt (fun t => (γ t).r.z) d.r.z t ∧ HasDerivAt (fun t => (γ t).v.x) d.v.x t ∧
    HasDerivAt (fun t => (γ t).v.y) d.v.y t ∧ HasDerivAt (fun t => (γ t).v.z) d.v.z t

/-- The same with a mass. -/
structure SolvesM (f : St ℝ → Option (St ℝ)) (a b : ℝ) (γ : ℝ → St ℝ) : Prop where
  def_ : ∀ t ∈ Set.Icc a b, ∃ d, f (γ t) = some d ∧
    HasDerivAt (fun t => (γ t).rv.r.x) d.rv.r.x t ∧ HasDerivAt (fun t => (γ t).rv.r.y) d.rv.r.y t ∧
    HasDerivAt (fun t => (γ t).rv.r.z) d.rv.r.z t ∧ HasDerivAt (fun t => (γ t).rv.v.x) d.rv.v.x t ∧
    HasDerivAt (fun t => (γ t).rv.v.y) d.rv.v.y t ∧ HasDerivAt (fun t => (γ t).rv.v.z) d.rv.v.z t ∧
    HasDerivAt (fun t => (γ t).m) d.m t

/-- The Jacobi constant of the circular restricted three-body problem: twice the effective
potential minus the square of the velocity in the rotating frame. -/
noncomputable def jacobi (mu : ℝ) (s : RV ℝ) : ℝ :=
  s.r.x ^ 2 + s.r.y ^ 2 + 2 * (1 - mu) / √((s.r.x + mu) ^ 2 + s.r.y ^ 2 + s.r.z ^ 2)
    + 2 * mu / √((s.r.x - (1 - mu)) ^ 2 + s.r.y ^ 2 + s.r.z ^ 2) - V3.dot s.v s.v

theorem const_of_deriv {f : ℝ → ℝ} {a b : ℝ} (h : ∀ t ∈ Set.Icc a b, HasDerivAt f 0 t) :
    ∀ t ∈ Set.Icc a b, f t = f a := by
  refine constant_of_has_deriv_right_zero (fun t ht => (h t ht).continuousAt.continuousWithinAt) ?_
  intro t ht
  exact (h t ⟨ht.1, ht.2.le⟩).hasDerivWithinAt

theorem cr3bp_some {mu : ℝ} {s d : RV ℝ} (h : cr3bpDyn mu s = some d) :
    let r1 := √((s.r.x + mu) ^ 2 + s.r.y ^ 2 + s.r.z ^ 2)
    let r2 := √((s.r.x - (1 - mu)) ^ 2 + s.r.y ^ 2 + s.r.z ^ 2)
    r1 ≠ 0 ∧ r2 ≠ 0 ∧ d.r = s.v ∧
    d.v.x = 2 * s.v.y + s.r.x - (1 - mu) * (s.r.x + mu) / r1 ^ 3 - mu * (s.r.x + mu - 1) / r2 ^ 3 ∧
    d.v.y = -2 * s.v.x + s.r.y - (1 - mu) * s.r.y / r1 ^ 3 - mu * s.r.y / r2 ^ 3 ∧
    d.v.z = -(1 - mu) * s.r.z / r1 ^ 3 - mu * s.r.z / r2 ^ 3 := by
  intro r1 r2
  unfold cr3bpDyn at h
  by_cases h1 : r1 = 0
  · have : div? ((1 - mu) * (s.r.x + mu)) (r1 ^ 3) = none := by rw [h1]; simp [div?]
    simp only [r1] at this
    simp [this] at h
  by_cases h2 : r2 = 0
  · have : div? (mu * (s.r.x + mu - 1)) (r2 ^ 3) = none := by rw [h2]; simp [div?]
    have e1 := pow_ne_zero 3 h1
    simp only [r2] at this
    simp only [r1] at e1
    simp [this, div?_ok e1] at h
  have e1 := pow_ne_zero 3 h1
  have e2 := pow_ne_zero 3 h2
  simp only [r1, r2] at e1 e2
  simp only [div?_ok e1, div?_ok e2, Option.bind_eq_bind, Option.bind_some, Option.pure_def,
    Option.some.injEq] at h
  subst h
  exact ⟨h1, h2, rfl, rfl, rfl, rfl⟩

/-- C65: motions of the CR3BP equations keep the Jacobi constant. -/
theorem C65_jacobi (mu a b : ℝ) (γ : ℝ → RV ℝ) (h : Solves (cr3bpDyn mu) a b γ) :
    ∀ t ∈ Set.Icc a b, jacobi mu (γ t) = jacobi mu (γ a) := by
  refine const_of_deriv (f := fun t => jacobi mu (γ t)) fun t ht => ?_
  obtain ⟨d, hd, hx, hy, hz, hvx, hvy, hvz⟩ := h.def_ t ht
  obtain ⟨h1, h2, er, ex, ey, ez⟩ := cr3bp_some hd
  have q1 : (0 : ℝ) ≤ ((γ t).r.x + mu) ^ 2 + (γ t).r.y ^ 2 + (γ t).r.z ^ 2 := by positivity
  have q2 : (0 : ℝ) ≤ ((γ t).r.x - (1 - mu)) ^ 2 + (γ t).r.y ^ 2 + (γ t).r.z ^ 2 := by positivity
  have n1 : ((γ t).r.x + mu) ^ 2 + (γ t).r.y ^ 2 + (γ t).r.z ^ 2 ≠ 0 := fun e => h1 (by rw [e]; simp)
  have n2 : ((γ t).r.x - (1 - mu)) ^ 2 + (γ t).r.y ^ 2 + (γ t).r.z ^ 2 ≠ 0 := fun e => h2 (by rw [e]; simp)
  have d1 := ((((hx.add_const mu).pow 2).add (hy.pow 2)).add (hz.pow 2)).sqrt n1
  have d2 := ((((hx.sub_const (1 - mu)).pow 2).add (hy.pow 2)).add (hz.pow 2)).sqrt n2
  have s1 := Real.sq_sqrt q1
  have s2 := Real.sq_sqrt q2
  have D := (((((hx.pow 2).add (hy.pow 2)).add ((hasDerivAt_const t (2 * (1 - mu))).div d1 h1)).add
    ((hasDerivAt_const t (2 * mu)).div d2 h2)).sub
    (((hvx.mul hvx).add (hvy.mul hvy)).add (hvz.mul hvz)))
  refine (D.congr_deriv ?_)
  simp only [er, ex, ey, ez, Pi.add_apply, Pi.pow_apply]
  generalize √(((γ t).r.x + mu) ^ 2 + (γ t).r.y ^ 2 + (γ t).r.z ^ 2) = r1 at *
  generalize √(((γ t).r.x - (1 - mu)) ^ 2 + (γ t).r.y ^ 2 + (γ t).r.z ^ 2) = r2 at *
  field_simp
  ring

theorem rpow32 {r : V3 ℝ} (h : r ≠ 0) : (r.x ^ 2 + r.y ^ 2 + r.z ^ 2) ^ (-3 / 2 : ℝ) = 1 / V3.norm r ^ 3 := by
  have e : r.x ^ 2 + r.y ^ 2 + r.z ^ 2 = V3.norm r ^ 2 := by rw [V3.norm_sq]; unfold V3.dot; ring
  have hp := V3.norm_pos h
  rw [e, ← Real.rpow_natCast, ← Real.rpow_mul hp.le, one_div, ← Real.rpow_natCast, ← Real.rpow_neg hp.le]
  norm_num

theorem sq_ne {r : V3 ℝ} : r.x ^ 2 + r.y ^ 2 + r.z ^ 2 = 0 ↔ r = 0 := by
  rw [← V3.norm_eq_zero]
  have e : r.x ^ 2 + r.y ^ 2 + r.z ^ 2 = V3.norm r ^ 2 := by rw [V3.norm_sq]; unfold V3.dot; ring
  rw [e]
  simp

theorem norm_eq (u : V3 ℝ) : √(u.x ^ 2 + u.y ^ 2 + u.z ^ 2) = V3.norm u := by
  unfold V3.norm V3.dot
  congr 1
  ring

/-- When `stark_dyn` is defined and what it is: Newton's attraction plus thrust over mass, and the
mass flow. -/
theorem stark_iff (mu veff : ℝ) (u : V3 ℝ) (s d : St ℝ) :
    starkDyn mu veff u s = some d ↔
      (s.rv.r ≠ 0 ∧ s.m ≠ 0 ∧ (u ≠ 0 → veff ≠ 0)) ∧ d.rv.r = s.rv.v ∧
      d.rv.v.x = -(mu / V3.norm s.rv.r ^ 3) * s.rv.r.x + u.x / s.m ∧
      d.rv.v.y = -(mu / V3.norm s.rv.r ^ 3) * s.rv.r.y + u.y / s.m ∧
      d.rv.v.z = -(mu / V3.norm s.rv.r ^ 3) * s.rv.r.z + u.z / s.m ∧ d.m = -(V3.norm u / veff) := by
  unfold starkDyn
  by_cases hr : s.rv.r = 0
  · have : pow32? (s.rv.r.x ^ 2 + s.rv.r.y ^ 2 + s.rv.r.z ^ 2) = none := if_pos (sq_ne.2 hr)
    constructor
    · intro h
      simp only [this, Option.bind_eq_bind, Option.bind_none] at h
      exact nomatch h
    · rintro ⟨⟨h, -⟩, -⟩
      exact absurd hr h
  have hp : pow32? (s.rv.r.x ^ 2 + s.rv.r.y ^ 2 + s.rv.r.z ^ 2) = some (1 / V3.norm s.rv.r ^ 3) := by
    unfold pow32?
    rw [if_neg (fun e => hr (sq_ne.1 e)), rpow32 hr]
  by_cases hm : s.m = 0
  · have : ∀ x, div? x s.m = none := fun x => if_pos hm
    constructor
    · intro h
      simp only [hp, this, Option.bind_eq_bind, Option.bind_some, Option.bind_none] at h
      exact nomatch h
    · rintro ⟨⟨-, h, -⟩, -⟩
      exact absurd hm h
  simp only [hp, div?_ok hm, norm_eq, Option.bind_eq_bind, Option.bind_some, Option.pure_def]
  by_cases hu : u = 0
  · subst hu
    have h0 : V3.norm (0 : V3 ℝ) = 0 := V3.norm_eq_zero.2 rfl
    simp only [h0, if_true, Option.bind_some, Option.some.injEq]
    constructor
    · rintro rfl
      refine ⟨⟨hr, hm, fun h => absurd rfl h⟩, rfl, ?_, ?_, ?_, by simp⟩ <;> ring
    · rintro ⟨-, h1, h2, h3, h4, h5⟩
      obtain ⟨⟨dr, ⟨a, b, c⟩⟩, m⟩ := d
      simp only at h1 h2 h3 h4 h5
      subst h1 h2 h3 h4 h5
      simp only [St.mk.injEq, RV.mk.injEq, V3.mk.injEq, true_and]
      refine ⟨⟨?_, ?_, ?_⟩, by simp⟩ <;> ring
  have hn : V3.norm u ≠ 0 := fun e => hu (V3.norm_eq_zero.1 e)
  rw [if_neg hn]
  by_cases hv : veff = 0
  · have : div? (-V3.norm u) veff = none := if_pos hv
    constructor
    · intro h
      simp only [this, Option.bind_none] at h
      exact nomatch h
    · rintro ⟨⟨-, -, h⟩, -⟩
      exact absurd hv (h hu)
  rw [div?_ok hv]
  simp only [Option.bind_some, Option.some.injEq]
  constructor
  · rintro rfl
    refine ⟨⟨hr, hm, fun _ => hv⟩, rfl, ?_, ?_, ?_, by simp only [neg_div]⟩ <;> ring
  · rintro ⟨-, h1, h2, h3, h4, h5⟩
    obtain ⟨⟨dr, ⟨a, b, c⟩⟩, m⟩ := d
    simp only at h1 h2 h3 h4 h5
    subst h1 h2 h3 h4 h5
    simp only [St.mk.injEq, RV.mk.injEq, V3.mk.injEq, true_and, neg_div, and_true]
    refine ⟨?_, ?_, ?_⟩ <;> ring

/-- C65: along a Stark motion the mass decreases linearly, at the rate thrust over effective
velocity, and it never vanishes. -/
theorem C65_mass (mu veff a b : ℝ) (u : V3 ℝ) (γ : ℝ → St ℝ)
    (h : SolvesM (starkDyn mu veff u) a b γ) :
    ∀ t ∈ Set.Icc a b, (γ t).m = (γ a).m - V3.norm u / veff * (t - a) ∧ (γ t).m ≠ 0 := by
  intro t ht
  constructor
  · have := const_of_deriv (f := fun t => (γ t).m + V3.norm u / veff * (t - a)) (a := a) (b := b)
      (fun t ht => by
        obtain ⟨d, hd, -, -, -, -, -, -, hm⟩ := h.def_ t ht
        have e := ((stark_iff mu veff u _ _).1 hd).2.2.2.2.2
        refine ((hm.add (((hasDerivAt_id' t).sub_const a).const_mul (V3.norm u / veff))).congr_deriv ?_)
        rw [e]
        ring) t ht
    simp only [sub_self, mul_zero, add_zero] at this
    linarith
  · obtain ⟨d, hd, -⟩ := h.def_ t ht
    exact ((stark_iff mu veff u _ _).1 hd).1.2.1

/-- C65: along a Stark motion the orbital energy changes at the rate of the power of the thrust
acceleration. -/
theorem C65_power (mu veff a b : ℝ) (u : V3 ℝ) (γ : ℝ → St ℝ)
    (h : SolvesM (starkDyn mu veff u) a b γ) :
    ∀ t ∈ Set.Icc a b, HasDerivAt (fun t => V3.dot (γ t).rv.v (γ t).rv.v / 2 - mu / V3.norm (γ t).rv.r)
      (V3.dot u (γ t).rv.v / (γ t).m) t := by
  intro t ht
  obtain ⟨d, hd, hx, hy, hz, hvx, hvy, hvz, -⟩ := h.def_ t ht
  obtain ⟨⟨hr, hm, -⟩, er, ex, ey, ez, -⟩ := (stark_iff mu veff u _ _).1 hd
  have hp := V3.norm_pos hr
  have q : (γ t).rv.r.x * (γ t).rv.r.x + (γ t).rv.r.y * (γ t).rv.r.y + (γ t).rv.r.z * (γ t).rv.r.z ≠ 0 := by
    have := V3.norm_mul_self (γ t).rv.r
    unfold V3.dot at this
    rw [← this]
    positivity
  have dn : HasDerivAt (fun t => V3.norm (γ t).rv.r) _ t :=
    (((hx.mul hx).add (hy.mul hy)).add (hz.mul hz)).sqrt q
  have D := ((((hvx.mul hvx).add (hvy.mul hvy)).add (hvz.mul hvz)).div_const 2).sub
    ((hasDerivAt_const t mu).div dn hp.ne')
  refine D.congr_deriv ?_
  have hs : √((γ t).rv.r.x * (γ t).rv.r.x + (γ t).rv.r.y * (γ t).rv.r.y + (γ t).rv.r.z * (γ t).rv.r.z)
      = V3.norm (γ t).rv.r := rfl
  simp only [er, ex, ey, ez, Pi.add_apply, Pi.mul_apply, hs]
  unfold V3.dot
  generalize V3.norm (γ t).rv.r = n at *
  have hn := hp.ne'
  field_simp
  ring

/-- C65: without thrust a Stark motion keeps its mass and is the two-body motion, so
`propagate_lagrangian` returns its state at every time (where its iterations reach, as in C21). -/
theorem C65_coast (mu veff : ℝ) (hmu : 0 < mu) (γ : ℝ → St ℝ)
    (h : ∀ T, SolvesM (starkDyn mu veff 0) (-T) T γ) (hh : V3.cross (γ 0).rv.r (γ 0).rv.v ≠ 0)
    (sv : Solver) (hsv : sv.Sound) (hq : sv.Quick) (t : ℝ) (hE : energy (γ 0).rv mu ≠ 0)
    (hr : HypRange (γ 0).rv mu t) :
    (γ t).m = (γ 0).m ∧ propagateLagrangian sv (γ 0).rv t mu = .ok (some (γ t).rv) := by
  have mem : ∀ t : ℝ, t ∈ Set.Icc (-|t|) |t| := fun t => ⟨neg_abs_le t, le_abs_self t⟩
  have h2 : TwoBody mu fun t => (γ t).rv := by
    constructor <;> intro t <;>
      obtain ⟨d, hd, hx, hy, hz, hvx, hvy, hvz, -⟩ := (h |t|).def_ t (mem t) <;>
      obtain ⟨-, er, ex, ey, ez, -⟩ := (stark_iff mu veff 0 _ _).1 hd
    · rw [er] at hx; exact hx
    · rw [er] at hy; exact hy
    · rw [er] at hz; exact hz
    · exact hvx.congr_deriv (by rw [ex]; show _ + (0 : ℝ) / _ = _; simp)
    · exact hvy.congr_deriv (by rw [ey]; show _ + (0 : ℝ) / _ = _; simp)
    · exact hvz.congr_deriv (by rw [ez]; show _ + (0 : ℝ) / _ = _; simp)
  have h0 : V3.norm (0 : V3 ℝ) = 0 := V3.norm_eq_zero.2 rfl
  refine ⟨?_, ?_⟩
  · have a1 := (C65_mass mu veff _ _ 0 γ (h |t|) t (mem t)).1
    have a2 := (C65_mass mu veff _ _ 0 γ (h |t|) 0 ⟨by simp, by simp⟩).1
    rw [h0] at a1 a2
    rw [a1, a2]
    ring
  · rcases propagateLagrangian_run hmu hh sv hsv t hE hr with ⟨-, h'⟩ | h'
    · exact absurd hq h'
    · rw [h', ← twoBody_unique hmu h2 hh t]

/-- C65: the state derivative that the high-fidelity leg uses for its gradients is the vector field
it integrates, for the gravity parameter, effective velocity and thrust of the leg. -/
theorem C65_leg (maxThrust isp mu : ℝ) (s : St ℝ) (w : V3 ℝ) :
    hfDerivative maxThrust isp mu s w =
      starkDyn mu (isp * G0) ⟨w.x * maxThrust, w.y * maxThrust, w.z * maxThrust⟩ s := by
  unfold hfDerivative starkDyn
  simp only [zero_add, ne_eq, ite_not]

/-! ### Concrete motions -/

/-- The hypothesis of `C65_coast` is met by every two-body motion that is not rectilinear. -/
theorem C65_coast_example (mu veff m a b : ℝ) (hmu : 0 < mu) (hm : m ≠ 0) (x : RV ℝ)
    (hh : V3.cross x.r x.v ≠ 0) : SolvesM (starkDyn mu veff 0) a b fun t => ⟨kepFlow x mu t, m⟩ := by
  have T := kepFlow_twoBody hmu hh
  have h0 : V3.norm (0 : V3 ℝ) = 0 := V3.norm_eq_zero.2 rfl
  constructor
  intro t _
  have hp := twoBody_norm_pos hmu T (by rw [kepFlow_zero hmu hh]; exact hh) t
  refine ⟨⟨⟨(kepFlow x mu t).v, ⟨_, _, _⟩⟩, 0⟩, ?_, T.rx t, T.ry t, T.rz t, T.vx t, T.vy t, T.vz t,
    hasDerivAt_const _ _⟩
  rw [stark_iff]
  refine ⟨⟨fun e => hp.ne' (V3.norm_eq_zero.2 e), hm, fun h => absurd rfl h⟩, rfl, ?_, ?_, ?_, by simp [h0]⟩
  all_goals
    show _ = _ + (0 : ℝ) / m
    simp

/-- C65 applies to the triangular equilibrium. -/
theorem C65_jacobi_example (a b : ℝ) :
    Solves (cr3bpDyn (1 / 4)) a b fun _ => ⟨⟨1 / 4, √3 / 2, 0⟩, ⟨0, 0, 0⟩⟩ := by
  constructor
  intro t _
  have h3 : (√3 : ℝ) ^ 2 = 3 := Real.sq_sqrt (by norm_num)
  have e1 : √(((1 / 4 : ℝ) + 1 / 4) ^ 2 + (√3 / 2) ^ 2 + 0 ^ 2) = 1 := by
    rw [div_pow, h3]; norm_num
  have e2 : √(((1 / 4 : ℝ) - (1 - 1 / 4)) ^ 2 + (√3 / 2) ^ 2 + 0 ^ 2) = 1 := by
    rw [div_pow, h3]; norm_num
  refine ⟨⟨⟨0, 0, 0⟩, ⟨0, 0, 0⟩⟩, ?_, hasDerivAt_const _ _, hasDerivAt_const _ _, hasDerivAt_const _ _,
    hasDerivAt_const _ _, hasDerivAt_const _ _, hasDerivAt_const _ _⟩
  unfold cr3bpDyn
  simp only [e1, e2, one_pow, div?_ok one_ne_zero, Option.bind_eq_bind, Option.bind_some, Option.pure_def,
    Option.some.injEq, RV.mk.injEq, V3.mk.injEq, true_and]
  refine ⟨by norm_num, by ring, by norm_num⟩

/-- C65 applies to a powered flight in free space: thrust 1, effective velocity 1, mass `1 - t`. -/
theorem C65_mass_example :
    SolvesM (starkDyn 0 1 ⟨1, 0, 0⟩) 0 (1 / 2) fun t =>
      ⟨⟨⟨(1 - t) * log (1 - t) + t, 1, 0⟩, ⟨-log (1 - t), 0, 0⟩⟩, 1 - t⟩ := by
  constructor
  intro t ht
  have hm : (1 - t) ≠ 0 := by have := ht.2; intro e; linarith
  have hn : V3.norm (⟨1, 0, 0⟩ : V3 ℝ) = 1 := by unfold V3.norm V3.dot; norm_num
  have d1 : HasDerivAt (fun t : ℝ => 1 - t) (-1) t := by simpa using (hasDerivAt_id' t).const_sub 1
  have d2 : HasDerivAt (fun t : ℝ => log (1 - t)) (-1 / (1 - t)) t := d1.log hm
  refine ⟨⟨⟨⟨-log (1 - t), 0, 0⟩, ⟨1 / (1 - t), 0, 0⟩⟩, -1⟩, ?_, ?_, hasDerivAt_const _ _, hasDerivAt_const _ _, ?_,
    hasDerivAt_const _ _, hasDerivAt_const _ _, d1⟩
  · rw [stark_iff]
    refine ⟨⟨?_, hm, fun _ => one_ne_zero⟩, rfl, ?_, ?_, ?_, ?_⟩
    · intro e
      have := congrArg V3.y e
      exact one_ne_zero this
    · simp
    · simp
    · simp
    · simp [hn]
  · refine ((d1.mul d2).add (hasDerivAt_id' t)).congr_deriv ?_
    field_simp
    ring
  · refine d2.neg.congr_deriv ?_
    field_simp

end Kep3.Stark
