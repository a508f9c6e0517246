import Verif.Lagr.URun
import Verif.Lagr.KepRun

/-!
# Propagation: conservation laws, the equations of motion, composition, agreement of the entry points

`energy`, `angMom` and `eccVec` are the specific energy, the angular momentum `r x v` and the eccentricity vector
`v x (r x v) / mu - r / |r|` of a state (`Verif.Elements.Frame`). `TwoBody mu g` says that `g` satisfies
`r' = v, v' = -mu r / |r|^3` at all times (`Verif.Lagr.Universal`).

The root finder is a parameter: `sv.Sound` says that when it does not use up its iterations and there is a root in the
bracket it returns a root in the bracket; `sv.Quick` says it never uses up its iterations.

`HypRange` is a condition on hyperbolas only: the mean anomaly difference is at most `10^10`. The code searches for the
hyperbolic anomaly in an interval of length 100.
-/

namespace Kep3
open Real V3

section
variable {sv : Solver} (hsv : sv.Sound) {x : RV ℝ} {mu : ℝ} (hmu : 0 < mu) (hh : cross x.r x.v ≠ 0)
include hsv hmu hh

theorem propL_flow {tof : ℝ} (hE : energy x mu ≠ 0) (hr : HypRange x mu tof) {y : RV ℝ}
    (h : propagateLagrangian sv x tof mu = .ok (some y)) : y = kepFlow x mu tof := by
  rcases propagateLagrangian_run hmu hh sv hsv tof hE hr with ⟨h1, -⟩ | h1
  · rw [h1] at h; exact nomatch h
  · rw [h1] at h; exact (Option.some.inj (Res.ok.inj h)).symm

/-- **C21**: every state returned has the energy, the angular momentum vector and the eccentricity vector of the initial
state. -/
theorem C21_conserved {tof : ℝ} (hE : energy x mu ≠ 0) (hr : HypRange x mu tof) {y : RV ℝ}
    (h : propagateLagrangian sv x tof mu = .ok (some y)) :
    energy y mu = energy x mu ∧ cross y.r y.v = cross x.r x.v ∧ eccVec y mu = eccVec x mu := by
  rw [propL_flow hsv hmu hh hE hr h]
  exact ⟨energy_stateU hmu hh _, angMom_stateU hmu hh _, eccVec_stateU hmu hh _⟩

/-- **C21**: a state is returned, unless the root finder uses up its iterations, which is reported. -/
theorem C21_returns {tof : ℝ} (hE : energy x mu ≠ 0) (hr : HypRange x mu tof) :
    (∃ y, propagateLagrangian sv x tof mu = .ok (some y)) ∨
      (propagateLagrangian sv x tof mu = .err .domainError ∧ ¬ sv.Quick) := by
  rcases propagateLagrangian_run hmu hh sv hsv tof hE hr with h | h
  · exact Or.inr h
  · exact Or.inl ⟨_, h⟩

/-- **C22**: there is a solution of the two-body problem through the initial state, defined for all times, and the
propagator returns its points. -/
theorem C22_solution (hE : energy x mu ≠ 0) :
    ∃ γ : ℝ → RV ℝ, TwoBody mu γ ∧ γ 0 = x ∧ ∀ tof, HypRange x mu tof →
      propagateLagrangian sv x tof mu = .ok (some (γ tof)) ∨
        (propagateLagrangian sv x tof mu = .err .domainError ∧ ¬ sv.Quick) :=
  ⟨kepFlow x mu, kepFlow_twoBody hmu hh, kepFlow_zero hmu hh, fun tof hr =>
    (propagateLagrangian_run hmu hh sv hsv tof hE hr).symm⟩

end

/-- **C22**: what is returned is the point reached at the time of flight by *any* solution of the two-body problem that
starts at the initial state. -/
theorem C22_unique {sv : Solver} (hsv : sv.Sound) {mu : ℝ} (hmu : 0 < mu) {γ : ℝ → RV ℝ} (hγ : TwoBody mu γ)
    (hh : cross (γ 0).r (γ 0).v ≠ 0) (hE : energy (γ 0) mu ≠ 0) {tof : ℝ} (hr : HypRange (γ 0) mu tof) {y : RV ℝ}
    (h : propagateLagrangian sv (γ 0) tof mu = .ok (some y)) : y = γ tof := by
  rw [propL_flow hsv hmu hh hE hr h]
  exact (twoBody_unique hmu hγ hh tof).symm

section
variable {sv : Solver} (hsv : sv.Sound) {x : RV ℝ} {mu : ℝ} (hmu : 0 < mu) (hh : cross x.r x.v ≠ 0)
include hsv hmu hh

/-- **C22**: a zero time of flight returns the initial state. -/
theorem C22_zero (hE : energy x mu ≠ 0) {y : RV ℝ}
    (h : propagateLagrangian sv x 0 mu = .ok (some y)) : y = x := by
  rw [propL_flow hsv hmu hh hE (fun _ => by norm_num) h, kepFlow_zero hmu hh]

/-- **C22**: for an ellipse and a root finder that converges, the returned state as a function of the time of flight
solves the equations of motion at all times. -/
theorem C22_ellipse (hq : sv.Quick) (hE : energy x mu < 0) :
    ∃ γ : ℝ → RV ℝ, (∀ tof, propagateLagrangian sv x tof mu = .ok (some (γ tof))) ∧ TwoBody mu γ ∧ γ 0 = x := by
  refine ⟨kepFlow x mu, fun tof => ?_, kepFlow_twoBody hmu hh, kepFlow_zero hmu hh⟩
  rcases propagateLagrangian_run hmu hh sv hsv tof hE.ne (fun h => absurd h hE.not_gt) with ⟨-, h⟩ | h
  · exact absurd hq h
  · exact h

/-- **C23**: propagating by `t1` and then by `t2` is propagating by `t1 + t2`. -/
theorem C23_compose {t1 t2 : ℝ} (hE : energy x mu ≠ 0) (hr1 : HypRange x mu t1) (hr2 : HypRange x mu t2)
    (hr : HypRange x mu (t1 + t2)) {y z w : RV ℝ}
    (h1 : propagateLagrangian sv x t1 mu = .ok (some y)) (h2 : propagateLagrangian sv y t2 mu = .ok (some z))
    (h : propagateLagrangian sv x (t1 + t2) mu = .ok (some w)) : z = w := by
  have hy := propL_flow hsv hmu hh hE hr1 h1
  subst hy
  have e1 : energy (kepFlow x mu t1) mu = energy x mu := energy_stateU hmu hh _
  have e2 : angMom (kepFlow x mu t1) = angMom x := angMom_stateU hmu hh _
  have e3 : alphaOf (kepFlow x mu t1) mu = alphaOf x mu := alphaOf_stateU hmu hh _
  have hz := propL_flow hsv hmu (x := kepFlow x mu t1) (by show angMom _ ≠ 0; rw [e2]; exact hh) (by rw [e1]; exact hE)
    (by unfold HypRange; rw [e1, e3]; exact hr2) h2
  rw [hz, propL_flow hsv hmu hh hE hr h, kepFlow_comp hmu hh]

/-- **C23**: propagating forth and back returns to the initial state. -/
theorem C23_there_and_back {t : ℝ} (hE : energy x mu ≠ 0) (hr : HypRange x mu t) {y z : RV ℝ}
    (h1 : propagateLagrangian sv x t mu = .ok (some y)) (h2 : propagateLagrangian sv y (-t) mu = .ok (some z)) :
    z = x := by
  have hy := propL_flow hsv hmu hh hE hr h1
  subst hy
  have e1 : energy (kepFlow x mu t) mu = energy x mu := energy_stateU hmu hh _
  have e2 : angMom (kepFlow x mu t) = angMom x := angMom_stateU hmu hh _
  have e3 : alphaOf (kepFlow x mu t) mu = alphaOf x mu := alphaOf_stateU hmu hh _
  have hz := propL_flow hsv hmu (x := kepFlow x mu t) (by show angMom _ ≠ 0; rw [e2]; exact hh) (by rw [e1]; exact hE)
    (by unfold HypRange; rw [e1, e3, abs_neg]; exact hr) h2
  rw [hz, kepFlow_comp hmu hh, add_neg_cancel, kepFlow_zero hmu hh]

/-- **C23**: on an ellipse, adding any whole number of periods `2 pi sqrt (a^3 / mu)` (with `a = -mu / (2 energy)`) to
the time of flight does not change the result. -/
theorem C23_periodic (hE : energy x mu < 0) (t : ℝ) (k : ℤ) {y z : RV ℝ}
    (h1 : propagateLagrangian sv x t mu = .ok (some y))
    (h2 : propagateLagrangian sv x (t + k * (2 * π * √((-mu / (2 * energy x mu)) ^ 3 / mu))) mu = .ok (some z)) :
    z = y := by
  have hno : ∀ t, HypRange x mu t := fun t h => absurd h hE.not_gt
  rw [propL_flow hsv hmu hh hE.ne (hno _) h1, propL_flow hsv hmu hh hE.ne (hno _) h2]
  have hea := energy_alpha hmu hh (x := x)
  have ha : 0 < alphaOf x mu := by
    by_contra hc
    have : 0 ≤ -(mu / 2) * alphaOf x mu := mul_nonneg_of_nonpos_of_nonpos (by linarith) (by linarith)
    linarith
  have hb := sqrt_pos.2 ha
  have hα : alphaOf x mu = √(alphaOf x mu) ^ 2 := (sq_sqrt ha.le).symm
  obtain ⟨p1, p2⟩ := timeU_period_int hmu hh hb hα (anomU x mu t) k
  have hk := sqrt_pos.2 hmu
  have hT : √((-mu / (2 * energy x mu)) ^ 3 / mu) = 1 / (√(alphaOf x mu) ^ 3 * √mu) := by
    rw [hea]
    generalize √(alphaOf x mu) = b at *
    rw [hα]
    have e1 : (-mu / (2 * (-(mu / 2) * b ^ 2))) ^ 3 / mu = (1 / (b ^ 3 * √mu)) ^ 2 := by
      have := sq_sqrt hmu.le
      field_simp
      rw [this]
    rw [e1, sqrt_sq (by positivity)]
  rw [hT, kepFlow_of_time hmu hh (s := anomU x mu t + 2 * π * k / √(alphaOf x mu)), p2]
  · rfl
  · rw [p1, timeU_anomU hmu hh]; field_simp

end

/-- **C24**: the vectorised entry point returns the list of the individual results when every time succeeds. -/
theorem C24_v_ok (sv : Solver) (x : RV ℝ) (tofs : List ℝ) (mu : ℝ) (ys : List (Option (RV ℝ))) :
    propagateLagrangianV sv x tofs mu = .ok ys ↔
      List.Forall₂ (fun t y => propagateLagrangian sv x t mu = .ok y) tofs ys := by
  unfold propagateLagrangianV
  induction tofs generalizing ys with
  | nil =>
    simp only [List.mapM_nil, Res.pure_eq, List.forall₂_nil_left_iff]
    exact ⟨fun h => (Res.ok.inj h).symm, fun h => by rw [h]⟩
  | cons t ts ih =>
    rw [List.mapM_cons]
    constructor
    · intro h
      cases h1 : propagateLagrangian sv x t mu with
      | ok y =>
        cases h2 : ts.mapM fun tof => propagateLagrangian sv x tof mu with
        | ok zs =>
          rw [h1, h2] at h
          have h : Res.ok (y :: zs) = Res.ok ys := h
          rw [← Res.ok.inj h]
          exact List.Forall₂.cons h1 ((ih zs).1 h2)
        | err e => rw [h1, h2] at h; exact nomatch h
        | ub => rw [h1, h2] at h; exact nomatch h
      | err e => rw [h1] at h; exact nomatch h
      | ub => rw [h1] at h; exact nomatch h
    · rintro (_ | ⟨h1, h2⟩)
      rw [h1, (ih _).2 h2]
      rfl

/-- **C24**: the vectorised entry point fails exactly when a time fails, with the error of the first one that does. -/
theorem C24_v_err (sv : Solver) (x : RV ℝ) (tofs : List ℝ) (mu : ℝ) (e : Exc) :
    propagateLagrangianV sv x tofs mu = .err e ↔
      ∃ pre t post, tofs = pre ++ t :: post ∧ (∀ u ∈ pre, ∃ y, propagateLagrangian sv x u mu = .ok y) ∧
        propagateLagrangian sv x t mu = .err e := by
  unfold propagateLagrangianV
  induction tofs with
  | nil =>
    simp only [List.mapM_nil, Res.pure_eq]
    constructor
    · exact fun h => nomatch h
    · rintro ⟨pre, t, post, h, -⟩
      simp at h
  | cons t ts ih =>
    rw [List.mapM_cons]
    cases h1 : propagateLagrangian sv x t mu with
    | ok y =>
      have : (Res.ok y >>= fun a => (ts.mapM fun tof => propagateLagrangian sv x tof mu) >>= fun as => pure (a :: as))
          = .err e ↔ (ts.mapM fun tof => propagateLagrangian sv x tof mu) = .err e := by
        cases ts.mapM fun tof => propagateLagrangian sv x tof mu with
        | ok zs => exact ⟨fun h => (nomatch h), fun h => (nomatch h)⟩
        | err e' => exact Iff.rfl
        | ub => exact ⟨fun h => (nomatch h), fun h => (nomatch h)⟩
      rw [this, ih]
      constructor
      · rintro ⟨pre, u, post, h2, h3, h4⟩
        refine ⟨t :: pre, u, post, by rw [h2]; rfl, ?_, h4⟩
        intro w hw
        rcases List.mem_cons.1 hw with rfl | hw
        · exact ⟨y, h1⟩
        · exact h3 w hw
      · rintro ⟨pre, u, post, h2, h3, h4⟩
        rcases pre with _ | ⟨p, pre⟩
        · obtain ⟨rfl, -⟩ := List.cons.inj h2
          rw [h1] at h4; exact nomatch h4
        · obtain ⟨rfl, h5⟩ := List.cons.inj h2
          exact ⟨pre, u, post, h5, fun w hw => h3 w (List.mem_cons_of_mem _ hw), h4⟩
    | err e' =>
      constructor
      · intro h
        have h : e' = e := Res.err.inj h
        exact ⟨[], t, ts, rfl, fun u hu => absurd hu (List.not_mem_nil), by rw [h1, h]⟩
      · rintro ⟨pre, u, post, h2, h3, h4⟩
        rcases pre with _ | ⟨p, pre⟩
        · obtain ⟨rfl, -⟩ := List.cons.inj h2
          rw [h1] at h4; exact congrArg Res.err (Res.err.inj h4)
        · obtain ⟨rfl, -⟩ := List.cons.inj h2
          obtain ⟨y, hy⟩ := h3 t (List.mem_cons_self)
          rw [h1] at hy; exact nomatch hy
    | ub =>
      constructor
      · exact fun h => nomatch h
      · rintro ⟨pre, u, post, h2, h3, h4⟩
        rcases pre with _ | ⟨p, pre⟩
        · obtain ⟨rfl, -⟩ := List.cons.inj h2
          rw [h1] at h4; exact nomatch h4
        · obtain ⟨rfl, -⟩ := List.cons.inj h2
          obtain ⟨y, hy⟩ := h3 t (List.mem_cons_self)
          rw [h1] at hy; exact nomatch hy

section
variable {sv : Solver} (hsv : sv.Sound) {x : RV ℝ} {mu : ℝ} (hmu : 0 < mu)
include hsv hmu

/-- **C24**: on an inclined, non-circular ellipse, with neither end at the apocentre, propagation through the orbital
elements and through the Lagrange coefficients return the same state. -/
theorem C24_keplerian_ellipse_partial {dt : ℝ} (hn : (cross x.r x.v).x ≠ 0 ∨ (cross x.r x.v).y ≠ 0) (he : eccVec x mu ≠ 0)
    (hE : energy x mu < 0) {y z : RV ℝ} (h : propagateLagrangian sv x dt mu = .ok (some y)) (h0 : NotApocentre x mu)
    (h1 : NotApocentre y mu) (h2 : propagateKeplerian sv x dt mu = .ok (some z)) : z = y := by
  have hh : cross x.r x.v ≠ 0 := by intro h0; rw [h0] at hn; simp at hn
  have hy := propL_flow hsv hmu hh hE.ne (fun h => absurd h hE.not_gt) h
  subst hy
  rcases propagateKeplerian_ellipse sv hsv x dt hmu hn he hE h0 h1 with ⟨h3, -⟩ | h3
  · rw [h3] at h2; exact nomatch h2
  · rw [h3] at h2; exact (Option.some.inj (Res.ok.inj h2)).symm

/-- **C24**: the same for inclined hyperbolas, for mean anomalies up to `10^9`. -/
theorem C24_keplerian_hyperbola_partial {dt : ℝ} (hn : (cross x.r x.v).x ≠ 0 ∨ (cross x.r x.v).y ≠ 0)
    (hE : 0 < energy x mu) (hr : HypRangeK x mu dt) {y z : RV ℝ}
    (h : propagateLagrangian sv x dt mu = .ok (some y)) (h2 : propagateKeplerian sv x dt mu = .ok (some z)) :
    z = y := by
  have hh : cross x.r x.v ≠ 0 := by intro h0; rw [h0] at hn; simp at hn
  rw [propL_flow hsv hmu hh hE.ne' (fun _ => le_trans hr.2 (by norm_num)) h]
  rcases propagateKeplerian_hyperbola sv hsv x dt hmu hn hE hr with ⟨h3, -⟩ | h3
  · rw [h3] at h2; exact nomatch h2
  · rw [h3] at h2; exact (Option.some.inj (Res.ok.inj h2)).symm

/-- **C24**: with a converging root finder both entry points return a state, so the two theorems above are about all
such calls. -/
theorem C24_keplerian_returns_partial {dt : ℝ} (hq : sv.Quick) (hn : (cross x.r x.v).x ≠ 0 ∨ (cross x.r x.v).y ≠ 0) :
    (energy x mu < 0 → eccVec x mu ≠ 0 → NotApocentre x mu → (∀ γ, TwoBody mu γ → γ 0 = x → NotApocentre (γ dt) mu) →
      ∃ y, propagateLagrangian sv x dt mu = .ok (some y) ∧ propagateKeplerian sv x dt mu = .ok (some y)) ∧
    (0 < energy x mu → HypRangeK x mu dt →
      ∃ y, propagateLagrangian sv x dt mu = .ok (some y) ∧ propagateKeplerian sv x dt mu = .ok (some y)) := by
  have hh : cross x.r x.v ≠ 0 := by intro h0; rw [h0] at hn; simp at hn
  constructor
  · intro hE he h0 h1
    refine ⟨kepFlow x mu dt, ?_, ?_⟩
    · exact (propagateLagrangian_run hmu hh sv hsv dt hE.ne (fun h => absurd h hE.not_gt)).resolve_left
        fun h => h.2 hq
    · exact (propagateKeplerian_ellipse sv hsv x dt hmu hn he hE h0
        (h1 _ (kepFlow_twoBody hmu hh) (kepFlow_zero hmu hh))).resolve_left fun h => h.2 hq
  · intro hE hr
    refine ⟨kepFlow x mu dt, ?_, ?_⟩
    · exact (propagateLagrangian_run hmu hh sv hsv dt hE.ne' (fun _ => le_trans hr.2 (by norm_num))).resolve_left
        fun h => h.2 hq
    · exact (propagateKeplerian_hyperbola sv hsv x dt hmu hn hE hr).resolve_left fun h => h.2 hq

/-- **C24**: the universal variable propagator agrees with `propagate_lagrangian` when the solution of its equation is
within `2 pi` of its initial guess. -/
theorem C24_universal_partial {dt : ℝ} (hh : cross x.r x.v ≠ 0) (hE : energy x mu ≠ 0) (hr : HypRange x mu dt)
    (hu : UReach x mu dt) {y z : RV ℝ} (h : propagateLagrangian sv x dt mu = .ok (some y))
    (h2 : propagateLagrangianU sv x dt mu = .ok (some z)) : z = y := by
  rw [propL_flow hsv hmu hh hE hr h]
  rcases propU_run sv hsv hmu hh hu with ⟨h3, -⟩ | h3
  · rw [h3] at h2; exact nomatch h2
  · rw [h3] at h2; exact (Option.some.inj (Res.ok.inj h2)).symm

/-- **C24**: in particular for all times when the orbit is an ellipse and `e sqrt a <= pi` in the units of the call. -/
theorem C24_universal_ellipse_partial {dt : ℝ} (hh : cross x.r x.v ≠ 0) (hE : energy x mu < 0)
    (he : norm (eccVec x mu) * √(-mu / (2 * energy x mu)) ≤ π) {y z : RV ℝ}
    (h : propagateLagrangian sv x dt mu = .ok (some y))
    (h2 : propagateLagrangianU sv x dt mu = .ok (some z)) : z = y := by
  have hea := energy_alpha hmu hh (x := x)
  have ha : 0 < alphaOf x mu := by
    by_contra hc
    have : 0 ≤ -(mu / 2) * alphaOf x mu := mul_nonneg_of_nonpos_of_nonpos (by linarith) (by linarith)
    linarith
  refine C24_universal_partial hsv hmu hh hE.ne (fun h => absurd h hE.not_gt) (uReach_ellipse hmu hh ha ?_ dt) h h2
  have e : -mu / (2 * energy x mu) = 1 / alphaOf x mu := by rw [hea]; field_simp
  rw [e, sqrt_div zero_le_one, sqrt_one, mul_one_div, div_le_iff₀ (sqrt_pos.2 ha)] at he
  exact he

end

/-- **C24, negation**: when the solution is outside that bracket the universal variable propagator returns something
else than `propagate_lagrangian`, whatever the (bracketed) root finder does. -/
theorem C24_universal_misses {sv : Solver} (hsv : sv.Sound) (hin : sv.Inside) {x : RV ℝ} {mu : ℝ} (hmu : 0 < mu)
    {dt : ℝ} (hh : cross x.r x.v ≠ 0) (hE : energy x mu ≠ 0) (hr : HypRange x mu dt) (hu : ¬ UReach x mu dt)
    {y : RV ℝ} (h : propagateLagrangian sv x dt mu = .ok (some y)) :
    propagateLagrangianU sv x dt mu ≠ .ok (some y) := by
  rw [propL_flow hsv hmu hh hE hr h]
  exact propU_miss sv hin hmu hh hu

/-- A state eight thousand kilometres from the centre of a planet like the Earth, at the pericentre of an orbit of
semi-major axis ten thousand kilometres and eccentricity 0.2, in metres and seconds. -/
noncomputable def siOrbit : RV ℝ := ⟨⟨8000000, 0, 0⟩, ⟨0, √60000000, 0⟩⟩

theorem siOrbit_norm : norm siOrbit.r = 8000000 := by
  unfold V3.norm siOrbit
  simp only [dot]
  rw [show (8000000 * 8000000 + 0 * 0 + 0 * 0 : ℝ) = 8000000 ^ 2 by norm_num]
  exact sqrt_sq (by norm_num)

theorem siOrbit_alpha : alphaOf siOrbit 400000000000000 = 1 / 10000000 := by
  unfold alphaOf
  rw [siOrbit_norm]
  simp only [siOrbit, dot]
  have := mul_self_sqrt (show (0 : ℝ) ≤ 60000000 by norm_num)
  rw [show (0 * 0 + √60000000 * √60000000 + 0 * 0 : ℝ) = 60000000 by linarith]
  norm_num

theorem siOrbit_h : cross siOrbit.r siOrbit.v ≠ 0 := by
  intro h
  have := congrArg V3.z h
  simp [siOrbit, cross] at this

theorem siOrbit_energy : energy siOrbit 400000000000000 < 0 := by
  rw [energy_alpha (by norm_num) siOrbit_h, siOrbit_alpha]; norm_num

/-- **C24, negation, concrete**: from that state, for the time of flight to eccentric anomaly `pi/2` (about 2170 s), the
universal variable propagator does not return the state that `propagate_lagrangian` returns, for any root finder that
converges to roots in its bracket. -/
theorem C24_universal_misses_si {sv : Solver} (hsv : sv.Sound) (hq : sv.Quick) (hin : sv.Inside) :
    ∃ y, propagateLagrangian sv siOrbit ((π / 2 - 1 / 5) * √2500000) 400000000000000 = .ok (some y) ∧
      propagateLagrangianU sv siOrbit ((π / 2 - 1 / 5) * √2500000) 400000000000000 ≠ .ok (some y) := by
  have hmu : (0 : ℝ) < 400000000000000 := by norm_num
  have hr : HypRange siOrbit 400000000000000 ((π / 2 - 1 / 5) * √2500000) := fun h => absurd h siOrbit_energy.not_gt
  have hrun := (propagateLagrangian_run hmu siOrbit_h sv hsv ((π / 2 - 1 / 5) * √2500000) siOrbit_energy.ne hr).resolve_left
    fun h => h.2 hq
  refine ⟨_, hrun, C24_universal_misses hsv hin hmu siOrbit_h siOrbit_energy.ne hr ?_ hrun⟩
  -- the universal anomaly
  obtain ⟨c, hc, hc2⟩ : ∃ c : ℝ, 0 < c ∧ c ^ 2 = 10000000 := ⟨√10000000, by positivity, sq_sqrt (by norm_num)⟩
  have hb : (0 : ℝ) < 1 / c := by positivity
  have hα : alphaOf siOrbit 400000000000000 = (1 / c) ^ 2 := by rw [siOrbit_alpha, div_pow, hc2]; norm_num
  have hσ : sigmaOf siOrbit 400000000000000 = 0 := by unfold sigmaOf siOrbit; simp [dot]
  have hk : √(400000000000000 : ℝ) = 20000000 := by
    rw [show (400000000000000 : ℝ) = 20000000 ^ 2 by norm_num]; exact sqrt_sq (by norm_num)
  have hs : √(2500000 : ℝ) = c / 2 := by
    rw [show (2500000 : ℝ) = (c / 2) ^ 2 by rw [div_pow, hc2]; norm_num]; exact sqrt_sq (by positivity)
  have e1 : 1 / c * (c * (π / 2)) = π / 2 := by field_simp
  have ht : timeU siOrbit 400000000000000 (c * (π / 2)) = (π / 2 - 1 / 5) * √2500000 := by
    unfold timeU
    rw [hα, U1_pos hb, U2_pos hb, U3_pos hb, hσ, siOrbit_norm, hk, hs, e1, sin_pi_div_two]
    have hc3 : c ^ 3 = 10000000 * c := by rw [pow_succ, hc2]
    field_simp
    rw [hc2]
    ring
  have hanom := anomU_eq hmu siOrbit_h ht
  have hp := pi_gt_three
  have hp4 := pi_le_four
  have hc3 : (3000 : ℝ) < c := by nlinarith
  unfold UReach igU
  rw [hanom, if_pos (by rw [siOrbit_alpha]; norm_num), siOrbit_alpha, hk, hs,
    abs_of_pos (show 0 < c * (π / 2) by positivity),
    abs_of_pos (show 0 < (π / 2 - 1 / 5) * (c / 2) from mul_pos (by linarith) (by positivity)), not_le]
  have : c * (π / 2) - 20000000 * ((π / 2 - 1 / 5) * (c / 2)) * (1 / 10000000) = c / 5 := by ring
  rw [this, abs_of_pos (by positivity)]
  linarith

/-- The root finder used in the examples meets all assumptions. -/
example : idealSolver.Sound ∧ idealSolver.Quick ∧ idealSolver.Inside :=
  ⟨idealSolver_sound, idealSolver_quick, idealSolver_inside⟩

/-- An ellipse meeting the hypotheses of C21 to C23, at all times. -/
example (tof : ℝ) : ∃ y, propagateLagrangian idealSolver siOrbit tof 400000000000000 = .ok (some y) ∧
    energy y 400000000000000 = energy siOrbit 400000000000000 ∧ cross y.r y.v = cross siOrbit.r siOrbit.v := by
  have hr : HypRange siOrbit 400000000000000 tof := fun h => absurd h siOrbit_energy.not_gt
  rcases C21_returns idealSolver_sound (by norm_num) siOrbit_h siOrbit_energy.ne hr with ⟨y, h⟩ | ⟨-, h⟩
  · have := C21_conserved idealSolver_sound (by norm_num) siOrbit_h siOrbit_energy.ne hr h
    exact ⟨y, h, this.1, this.2.1⟩
  · exact absurd idealSolver_quick h

/-- An inclined hyperbola (energy 1, from the pericentre), meeting the hypotheses of C21, C22 and C24. -/
noncomputable def hypOrbit : RV ℝ := ⟨⟨1, 0, 0⟩, ⟨0, 0, 2⟩⟩

theorem hypOrbit_norm : norm hypOrbit.r = 1 := by
  unfold V3.norm hypOrbit
  simp [dot]

theorem hypOrbit_alpha : alphaOf hypOrbit 1 = -2 := by
  unfold alphaOf
  rw [hypOrbit_norm]
  simp only [hypOrbit, dot]
  norm_num

theorem hypOrbit_h : (cross hypOrbit.r hypOrbit.v).x ≠ 0 ∨ (cross hypOrbit.r hypOrbit.v).y ≠ 0 := by
  right; simp [hypOrbit, cross]

theorem hypOrbit_h' : cross hypOrbit.r hypOrbit.v ≠ 0 := by
  intro h; have := hypOrbit_h; rw [h] at this; simp at this

theorem hypOrbit_energy : energy hypOrbit 1 = 1 := by
  rw [energy_alpha one_pos hypOrbit_h', hypOrbit_alpha]; norm_num

example (dt : ℝ) (h0 : |dt| ≤ 1000) : ∃ y, propagateLagrangian idealSolver hypOrbit dt 1 = .ok (some y) ∧
    propagateKeplerian idealSolver hypOrbit dt 1 = .ok (some y) := by
  refine (C24_keplerian_returns_partial idealSolver_sound one_pos idealSolver_quick hypOrbit_h).2
    (by rw [hypOrbit_energy]; norm_num) ?_
  unfold HypRangeK
  rw [hypOrbit_alpha]
  have hσ : sigmaOf hypOrbit 1 = 0 := by unfold sigmaOf hypOrbit; simp [dot]
  have h2 : √(- -2 : ℝ) ≤ 2 := by rw [neg_neg]; exact sqrt_le_iff.2 ⟨by norm_num, by norm_num⟩
  have h3 : √(- -2 : ℝ) ^ 3 ≤ 8 := by
    have := pow_le_pow_left₀ (sqrt_nonneg _) h2 3
    linarith
  have h4 := pow_nonneg (sqrt_nonneg (- -2 : ℝ)) 3
  rw [hσ, sqrt_one]
  constructor
  · norm_num
  · have := abs_nonneg dt
    nlinarith

/-- An ellipse in non-dimensional units, on which the universal variable propagator is always right. -/
noncomputable def unitOrbit : RV ℝ := ⟨⟨1, 0, 0⟩, ⟨0, 1, 0⟩⟩

example (dt : ℝ) : ∃ y, propagateLagrangian idealSolver unitOrbit dt 1 = .ok (some y) ∧
    propagateLagrangianU idealSolver unitOrbit dt 1 = .ok (some y) := by
  have hn : norm unitOrbit.r = 1 := by unfold V3.norm unitOrbit; simp [dot]
  have ha : alphaOf unitOrbit 1 = 1 := by
    unfold alphaOf; rw [hn]; simp only [unitOrbit, dot]; norm_num
  have hh : angMom unitOrbit ≠ 0 := by
    intro h; have := congrArg V3.z h; simp [unitOrbit, angMom, cross] at this
  have hE : energy unitOrbit 1 < 0 := by rw [energy_alpha one_pos hh, ha]; norm_num
  have he : norm (eccVec unitOrbit 1) ≤ π * √(alphaOf unitOrbit 1) := by
    have : eccVec unitOrbit 1 = 0 := by
      unfold eccVec; rw [hn]; unfold unitOrbit; ext <;> simp [cross]
    rw [this, ha]
    have : norm (0 : V3 ℝ) = 0 := by unfold V3.norm; simp [dot]
    rw [this, sqrt_one]; linarith [pi_pos]
  refine ⟨kepFlow unitOrbit 1 dt, ?_, ?_⟩
  · exact (propagateLagrangian_run one_pos hh _ idealSolver_sound dt hE.ne (fun h => absurd h hE.not_gt)).resolve_left
      fun h => h.2 idealSolver_quick
  · exact (propU_run _ idealSolver_sound one_pos hh (uReach_ellipse one_pos hh (by rw [ha]; norm_num) he dt)).resolve_left
      fun h => h.2 idealSolver_quick

/-- **C24, negation**: for an equatorial orbit (angular momentum along `z`) propagation through the orbital elements
gives no number, at any time. -/
theorem C24_keplerian_equatorial (sv : Solver) {x : RV ℝ} {mu : ℝ} (hx : (cross x.r x.v).x = 0)
    (hy : (cross x.r x.v).y = 0) (dt : ℝ) : propagateKeplerian sv x dt mu = .ok none := by
  have h : ic2par x mu = none := by
    unfold ic2par
    have hn : norm (cross kHat (cross x.r x.v)) = 0 := by
      have : cross kHat (cross x.r x.v) = 0 := by
        ext
        · simp only [kHat, cross_x, zero_x]; simp only [cross_y] at hy; rw [cross_y]; simp; linarith
        · simp only [kHat, cross_y, zero_y]; simp only [cross_x] at hx; rw [cross_x]; simp; linarith
        · simp [kHat, cross_z]
      rw [this]; unfold V3.norm; simp [dot]
    have hv : vdiv? (cross kHat (cross x.r x.v)) 0 = none := by unfold vdiv?; simp
    simp only [hn, hv, Option.bind_eq_bind, Option.bind_none, Option.bind_fun_none]
  unfold propagateKeplerian
  rw [h]

end Kep3
