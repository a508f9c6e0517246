import Verif.SF.Props43
import Verif.SF.Props47
import Verif.Lagr.Props25
import Verif.Lagr.Joint

/-!
# Sims-Flanagan legs with the propagator of the code

The leg theorems C43 and C47 hold for every ballistic motion with the properties they need. Here the motion is the one of
`propagate_lagrangian`: two-body motion. The states visited must not be radial or parabolic, and hyperbolas must be within the
search interval of the root finder (`InRange`).
-/

namespace Kep3.SF

open Kep3 SFSpec Filter Topology Real

/-- Where `propagate_lagrangian` is known to return the two-body motion: neither radial nor parabolic, hyperbolas within the
search interval (src/core_astro/propagate_lagrangian.cpp:112-122). -/
def InRange (mu : ℝ) (x : RV ℝ) (t : ℝ) : Prop :=
  angMom x ≠ 0 ∧ energy x mu ≠ 0 ∧ (0 < energy x mu → √mu * |t| * √(-alphaOf x mu) ^ 3 < 10 ^ 10)

/-- What the leg gets from `propagate_lagrangian(rv, t, mu, false).first`, src/leg/sims_flanagan.cpp:210, 228, 237 and 255; `none`
if no state is returned. -/
noncomputable def lagr (sv : Solver) (mu : ℝ) (x : RV ℝ) (t : ℝ) : Option (RV ℝ) :=
  match propagateLagrangian sv x t mu with
  | .ok o => o
  | _ => none

open Classical in
/-- The same, giving up outside the range. -/
noncomputable def lagrIn (sv : Solver) (mu : ℝ) (x : RV ℝ) (t : ℝ) : Option (RV ℝ) :=
  if InRange mu x t then lagr sv mu x t else none

open Classical in
/-- The same, with the state itself outside the range. -/
noncomputable def lagrTot (sv : Solver) (mu : ℝ) (x : RV ℝ) (t : ℝ) : RV ℝ :=
  if InRange mu x t then (lagr sv mu x t).getD x else x

/-- The matrix the leg gets from `propagate_lagrangian(rv, t, mu, true).second`, src/leg/sims_flanagan.cpp:349-353. -/
noncomputable def lagrStm (sv : Solver) (mu : ℝ) (x : RV ℝ) (t : ℝ) : Matrix (Fin 6) (Fin 6) ℝ :=
  match propagateLagrangianStm sv x t mu true with
  | .ok (some (_, some M)) => mat M
  | _ => 0

/-- Two-body motion off the radial states: `some y` if a motion goes from `x` to `y` in the time `t`. -/
noncomputable def kepLocal (mu : ℝ) (x : RV ℝ) (t : ℝ) : Option (RV ℝ) := by
  classical exact if angMom x = 0 then none else some (kepFlow x mu t)

theorem InRange.hyp {mu : ℝ} {x : RV ℝ} {t : ℝ} (h : InRange mu x t) : HypRange x mu t := fun hE => (h.2.2 hE).le

section
variable {sv : Solver} (hsv : sv.Sound) (hq : sv.Quick) {mu : ℝ} (hmu : 0 < mu)
include hmu

theorem kepLocal_iff (x y : RV ℝ) (t : ℝ) :
    kepLocal mu x t = some y ↔ angMom x ≠ 0 ∧ ∃ γ, TwoBody mu γ ∧ γ 0 = x ∧ γ t = y := by
  unfold kepLocal
  by_cases hh : angMom x = 0
  · rw [if_pos hh]
    constructor
    · intro h; exact nomatch h
    · rintro ⟨h, -⟩; exact absurd hh h
  · rw [if_neg hh]
    constructor
    · intro h
      exact ⟨hh, kepFlow x mu, kepFlow_twoBody hmu hh, kepFlow_zero hmu hh, Option.some.inj h⟩
    · rintro ⟨-, γ, hγ, h0, h1⟩
      have := twoBody_unique hmu hγ (by rw [h0]; exact hh) t
      rw [h0] at this
      rw [← this, h1]

theorem kepLocal_flow : LocalFlow (kepLocal mu) := by
  constructor
  · intro x t y h
    unfold kepLocal at h ⊢
    by_cases hh : angMom x = 0
    · rw [if_pos hh] at h; exact nomatch h
    · rw [if_neg hh] at h
      have h := Option.some.inj h
      subst h
      rw [if_neg (angMom_flow hmu hh t), kepFlow_comp hmu hh, add_neg_cancel, kepFlow_zero hmu hh]
  · intro x t z
    unfold kepLocal
    by_cases hh : angMom x = 0
    · simp [hh]
    · simp only [if_neg hh, Option.some.injEq, exists_eq_left', if_neg (angMom_flow hmu hh _), kepFlow_comp hmu hh, add_halves]

include hsv in
theorem lagrIn_le {x y : RV ℝ} {t : ℝ} (h : lagrIn sv mu x t = some y) : kepLocal mu x t = some y := by
  unfold lagrIn at h
  by_cases hr : InRange mu x t
  · rw [if_pos hr] at h
    unfold lagr at h
    unfold kepLocal
    rw [if_neg hr.1]
    rcases propagateLagrangian_run hmu hr.1 sv hsv t hr.2.1 hr.hyp with ⟨h1, -⟩ | h1
    · rw [h1] at h; exact nomatch h
    · rw [h1] at h; exact h
  · rw [if_neg hr] at h; exact nomatch h

include hsv hq in
theorem lagr_eq {x : RV ℝ} {t : ℝ} (hr : InRange mu x t) : lagr sv mu x t = some (kepFlow x mu t) := by
  unfold lagr
  rcases propagateLagrangian_run hmu hr.1 sv hsv t hr.2.1 hr.hyp with ⟨-, h1⟩ | h1
  · exact absurd hq h1
  · rw [h1]

include hsv hq in
theorem lagrTot_eq {x : RV ℝ} {t : ℝ} (hr : InRange mu x t) : lagrTot sv mu x t = kepFlow x mu t := by
  unfold lagrTot
  rw [if_pos hr, lagr_eq hsv hq hmu hr]
  rfl

omit hmu in
theorem flipV_rev (x : RV ℝ) : flipV x = x.rev := by
  unfold flipV RV.rev; apply RV.ext <;> ext <;> simp

omit hmu in
theorem inRange_rev {x : RV ℝ} {t : ℝ} : InRange mu x.rev (-t) ↔ InRange mu x t := by
  have e1 : angMom x.rev ≠ 0 ↔ angMom x ≠ 0 := by
    rw [angMom_rev, show -angMom x = (-1 : ℝ) • angMom x by ext <;> simp]
    constructor
    · rintro h h0
      exact h (by rw [h0]; ext <;> simp)
    · exact smul_ne (by norm_num)
  have e2 : energy x.rev mu = energy x mu := by unfold energy RV.rev; simp [V3.dot]
  have e3 : alphaOf x.rev mu = alphaOf x mu := by unfold alphaOf RV.rev; simp [V3.dot]
  unfold InRange
  rw [e1, e2, e3, abs_neg]

include hsv hq in
theorem lagrTot_reversible : Reversible (lagrTot sv mu) := by
  intro x t
  rw [flipV_rev, flipV_rev]
  by_cases hr : InRange mu x t
  · rw [lagrTot_eq hsv hq hmu hr, lagrTot_eq hsv hq hmu (inRange_rev.2 hr), kepFlow_rev hmu hr.1]
  · unfold lagrTot
    rw [if_neg hr, if_neg (fun h => hr (inRange_rev.1 h))]

/-- The range is open. -/
theorem inRange_open {x : RV ℝ} {t : ℝ} (hr : InRange mu x t) {X : ℝ → RV ℝ} {T : ℝ → ℝ} (hX0 : X 0 = x) (hT0 : T 0 = t)
    (hX : ContinuousAt (fun e => pack (X e)) 0) (hT : ContinuousAt T 0) : ∀ᶠ e in 𝓝 0, InRange mu (X e) (T e) := by
  obtain ⟨hh, hE, hr⟩ := hr
  have e1 : ∀ᶠ e in 𝓝 (0 : ℝ), angMom (X e) ≠ 0 := by
    have := hX.eventually (p := fun q => angMom (unpack q) ≠ 0) (eventually_angMom (p := pack (X 0)) (by rw [hX0]; simpa using hh))
    simpa using this
  have ha : ContinuousAt (fun e => energy (X e) mu) 0 := by
    have h1 : ContinuousAt (fun q => energy (unpack q) mu) (pack (X 0)) := by
      rw [hX0]; exact (grad_energy (p := pack x) (by simpa using r_ne_of_h hh)).continuousAt
    have := ContinuousAt.comp (f := fun e => pack (X e)) (g := fun q => energy (unpack q) mu) h1 hX
    exact this
  have hα : ∀ᶠ e in 𝓝 (0 : ℝ), alphaOf (X e) mu = -(2 / mu) * energy (X e) mu := by
    filter_upwards [e1] with e he
    rw [energy_alpha hmu he]; field_simp
  have e2 : ∀ᶠ e in 𝓝 (0 : ℝ), energy (X e) mu ≠ 0 := ha.eventually_ne (by rw [hX0]; exact hE)
  have e3 : ∀ᶠ e in 𝓝 (0 : ℝ), 0 < energy (X e) mu → √mu * |T e| * √(-alphaOf (X e) mu) ^ 3 < 10 ^ 10 := by
    rcases lt_or_gt_of_ne hE with hE | hE
    · filter_upwards [ha.eventually_lt continuousAt_const (by rw [hX0]; exact hE)] with e he
      exact fun h => absurd h he.not_gt
    · have hc : ContinuousAt (fun e => √mu * |T e| * √(-alphaOf (X e) mu) ^ 3) 0 := by
        have : ContinuousAt (fun e => alphaOf (X e) mu) 0 := (ContinuousAt.mul continuousAt_const ha).congr
          (by filter_upwards [hα] with e he using he.symm)
        exact (continuousAt_const.mul hT.abs).mul ((this.neg.sqrt).pow 3)
      filter_upwards [hc.eventually_lt continuousAt_const (by rw [hX0, hT0]; exact hr hE)] with e he
      exact fun _ => he
  filter_upwards [e1, e2, e3] with e h1 h2 h3
  exact ⟨h1, h2, h3⟩

/-- `_dyn` is the right-hand side of the equations of motion. -/
theorem dyn_eq (x : RV ℝ) (i : Fin 6) : dyn x mu i = ![x.v.x, x.v.y, x.v.z, -(mu / V3.norm x.r ^ 3) * x.r.x,
    -(mu / V3.norm x.r ^ 3) * x.r.y, -(mu / V3.norm x.r ^ 3) * x.r.z] i := by
  have h : (x.r.x * x.r.x + x.r.y * x.r.y + x.r.z * x.r.z) ^ (3 / 2 : ℝ) = V3.norm x.r ^ 3 := by
    have h0 : 0 ≤ x.r.x * x.r.x + x.r.y * x.r.y + x.r.z * x.r.z := by
      nlinarith [mul_self_nonneg x.r.x, mul_self_nonneg x.r.y, mul_self_nonneg x.r.z]
    unfold V3.norm V3.dot
    rw [sqrt_eq_rpow, ← rpow_natCast, ← rpow_mul h0]
    norm_num
  unfold dyn
  simp only [h, neg_div]

include hsv hq in
/-- Where it is in range, the propagator is differentiable along every curve, with the matrix it returns and the equations of
motion as derivatives. -/
theorem lagr_flowDeriv {x : RV ℝ} {t : ℝ} (hr : InRange mu x t) : FlowDeriv (lagrTot sv mu) (lagrStm sv mu) mu x t := by
  intro X T x' t' hX0 hT0 hX hT i
  have hX' : ∀ i, HasDerivAt (fun e => pack (X e) i) (x' i) 0 := hX
  have hM : Kep3.IsJac x mu t (lagrStm sv mu x t) := by
    rcases C25_returns hsv hmu hr.1 hr.2.1 hr.hyp with ⟨y, M, h⟩ | ⟨-, h⟩
    · unfold lagrStm
      rw [h]
      exact (propStm_jac hsv hmu hr.1 hr.hyp h).2.2
    · exact absurd hq h
  have hγ := kepFlow_twoBody hmu hr.1
  have hd : ∀ i, HasDerivAt (fun s => pack (kepFlow x mu s) i) (dyn (kepFlow x mu t) mu i) t := by
    intro i
    rw [dyn_eq hmu]
    fin_cases i
    · exact hγ.rx t
    · exact hγ.ry t
    · exact hγ.rz t
    · exact hγ.vx t
    · exact hγ.vy t
    · exact hγ.vz t
  have h := kepFlow_curve hmu hr.1 hr.2.1 hM hX0 hT0 hX' hT hd i
  rw [lagrTot_eq hsv hq hmu hr]
  refine (h.congr_of_eventuallyEq ?_).congr_deriv ?_
  · have hc : ContinuousAt (fun e => pack (X e)) 0 := continuousAt_pi.2 fun i => (hX' i).continuousAt
    filter_upwards [inRange_open hmu hr hX0 hT0 hc hT.continuousAt] with e he
    rw [lagrTot_eq hsv hq hmu he]
    rfl
  · simp [Pi.add_apply]

end

/-! ## Replacing the propagator by one that agrees with it at the states visited -/

/-- A pass whose machine acts like `gradients_multiple_impulses` at the states it visits. -/
theorem pass_visited (g : GradArgs) (φ : RV ℝ → ℝ → RV ℝ) (M : Machine Craft) (V : RV ℝ → RV ℝ) (dt' : ℝ)
    (hfull : ∀ i m, i ≠ 0 → i < g.n → M.coast ⟨some (V (g.before φ i)), m⟩ dt' = ⟨some (V (φ (g.before φ i) g.dt)), m⟩)
    (hhalf : ∀ i m, i = 0 ∨ i = g.n → M.coast ⟨some (V (g.before φ i)), m⟩ (dt' / 2) = ⟨some (V (φ (g.before φ i) (g.dt / 2))), m⟩)
    (hkick : ∀ x i, i < g.n → M.kick ⟨some (V x), g.m i⟩ (g.u i) =
      ⟨some (V ⟨x.r, ⟨x.v.x + (g.Dv i).x, x.v.y + (g.Dv i).y, x.v.z + (g.Dv i).z⟩⟩), g.m (i + 1)⟩)
    (hn : 0 < g.n) :
    pass M dt' g.us ⟨some (V g.rvs), g.ms⟩ = ⟨some (V (g.after φ g.n)), g.m g.n⟩ := by
  have key : ∀ k i, i + k = g.n → i < g.n →
      arcs M dt' (g.us.drop i) ⟨some (V (g.after φ i)), g.m i⟩ = ⟨some (V (g.after φ g.n)), g.m g.n⟩ := by
    intro k
    induction k with
    | zero => intro i h hi; omega
    | succ k ih =>
      intro i h hi
      have hi' : i < g.us.length := hi
      rw [List.drop_eq_getElem_cons hi']
      have hu : g.us[i] = g.u i := by
        unfold GradArgs.u
        rw [List.getD_eq_getElem?_getD, List.getElem?_eq_getElem hi', Option.getD_some]
      rw [hu]
      cases hd : g.us.drop (i + 1) with
      | nil =>
        have hlast : i + 1 = g.n := by
          have : g.us.length ≤ i + 1 := List.drop_eq_nil_iff.1 hd
          unfold GradArgs.n; omega
        rw [arcs, hkick _ _ hi]
        have := hhalf (i + 1) (g.m (i + 1)) (Or.inr hlast)
        unfold GradArgs.before at this
        unfold GradArgs.after at *
        simp only at this
        rw [this, ← hlast, show g.dur (i + 1) = g.dt / 2 by unfold GradArgs.dur; rw [if_pos (Or.inr hlast)]]
        rfl
      | cons v vs =>
        have hlt : i + 1 < g.n := by
          by_contra hge
          have : g.us.drop (i + 1) = [] := List.drop_eq_nil_iff.2 (by unfold GradArgs.n at hge; omega)
          rw [this] at hd; cases hd
        rw [arcs, hkick _ _ hi]
        have h1 := hfull (i + 1) (g.m (i + 1)) (by omega) hlt
        have h2 := ih (i + 1) (by omega) hlt
        rw [← h2, ← hd]
        congr 1
        unfold GradArgs.before at h1
        unfold GradArgs.after
        simp only at h1
        rw [h1, show g.dur (i + 1) = g.dt by unfold GradArgs.dur; rw [if_neg (by omega)]]
        rfl
  have h0 := key g.n 0 (by omega) hn
  rw [List.drop_zero] at h0
  unfold pass
  cases hus : g.us with
  | nil => unfold GradArgs.n at hn; rw [hus] at hn; simp at hn
  | cons u us =>
    simp only
    have h1 := hhalf 0 g.ms (Or.inl rfl)
    unfold GradArgs.before at h1
    rw [h1, ← hus, ← h0]
    unfold GradArgs.after
    rw [show g.dur 0 = g.dt / 2 by unfold GradArgs.dur; rw [if_pos (Or.inl rfl)]]
    rfl

theorem pass_fwd_visited (g : GradArgs) (φ : RV ℝ → ℝ → RV ℝ) {ψ : RV ℝ → ℝ → Option (RV ℝ)} (isp : ℝ) (hn : 0 < g.n)
    (hψ : ∀ i, i ≤ g.n → ψ (g.before φ i) (g.dur i) = some (φ (g.before φ i) (g.dur i)))
    (hc : 0 ≤ g.c) (hm : 0 < g.ms) (ha : g.a = 1 / isp / G0) :
    pass (fwdMachine ψ g.c (isp * G0)) g.dt g.us ⟨some g.rvs, g.ms⟩ = ⟨some (g.after φ g.n), g.m g.n⟩ := by
  refine pass_visited g φ _ id g.dt (fun i m h0 hi => ?_) (fun i m hi => ?_) (fun x i hi => ?_) hn
  · have := hψ i hi.le
    rw [show g.dur i = g.dt by unfold GradArgs.dur; rw [if_neg (by omega)]] at this
    show Craft.mk (ψ (g.before φ i) g.dt) m = _
    rw [this]; rfl
  · have := hψ i (by omega)
    rw [show g.dur i = g.dt / 2 by unfold GradArgs.dur; rw [if_pos hi]] at this
    show Craft.mk (ψ (g.before φ i) (g.dt / 2)) m = _
    rw [this]; rfl
  · have hk : 0 ≤ g.c / g.m i := div_nonneg hc (m_pos g hm i).le
    show Craft.mk _ (g.m i * Real.exp (-(Real.sqrt _) / _)) = _
    rw [norm_scaled hk]
    congr 1
    show _ = g.m i * Real.exp (-(g.c / g.m i * g.un i) * g.a)
    rw [ha]
    congr 2
    rw [un_sq, div_div, mul_one_div]

theorem pass_bck_visited (g : GradArgs) (φ : RV ℝ → ℝ → RV ℝ) {ψ : RV ℝ → ℝ → Option (RV ℝ)} (isp : ℝ) (hn : 0 < g.n)
    (hψ : ∀ i, i ≤ g.n → ψ (flipV ((bckArgs g).before φ i)) (-(bckArgs g).dur i) =
      some (flipV (φ ((bckArgs g).before φ i) ((bckArgs g).dur i))))
    (hc : 0 ≤ g.c) (hm : 0 < g.ms) (ha : g.a = 1 / isp / G0) :
    pass (bckMachine ψ g.c (isp * G0)) (-g.dt) g.us.reverse ⟨some g.rvs, g.ms⟩ =
      ⟨some (flipV ((bckArgs g).after φ g.n)), (bckArgs g).m g.n⟩ := by
  have hlen : (bckArgs g).n = g.n := by unfold bckArgs GradArgs.n; simp
  have := pass_visited (bckArgs g) φ (bckMachine ψ g.c (isp * G0)) flipV (-g.dt)
    (fun i m h0 hi => by
      have := hψ i (by rw [← hlen]; exact hi.le)
      rw [show (bckArgs g).dur i = (bckArgs g).dt by unfold GradArgs.dur; rw [if_neg (by omega)]] at this
      show Craft.mk (ψ (flipV ((bckArgs g).before φ i)) (-(bckArgs g).dt)) m = _
      rw [this])
    (fun i m hi => by
      have := hψ i (by rw [← hlen]; omega)
      rw [show (bckArgs g).dur i = (bckArgs g).dt / 2 by unfold GradArgs.dur; rw [if_pos hi], ← neg_div] at this
      show Craft.mk (ψ (flipV ((bckArgs g).before φ i)) (-(bckArgs g).dt / 2)) m = _
      rw [this])
    (fun x i hi => by
      have hk : 0 ≤ g.c / (bckArgs g).m i := div_nonneg hc (m_pos (bckArgs g) hm i).le
      show Craft.mk _ ((bckArgs g).m i * Real.exp ((Real.sqrt _) / _)) = _
      rw [norm_scaled hk]
      congr 1
      · unfold flipV
        show some (RV.mk _ _) = some (RV.mk _ _)
        congr 2
        unfold GradArgs.Dv
        simp only [V3.mk.injEq]
        refine ⟨?_, ?_, ?_⟩ <;> (show -_ - _ = -(_ + _); rw [neg_add]; rfl)
      · show _ = (bckArgs g).m i * Real.exp (-((bckArgs g).c / (bckArgs g).m i * (bckArgs g).un i) * -g.a)
        rw [ha]
        congr 2
        rw [un_sq, div_div, neg_mul_neg, mul_one_div]
        rfl)
    (by rw [hlen]; exact hn)
  rw [hlen] at this
  rw [← this]
  show pass _ _ _ _ = pass _ _ g.us.reverse (Craft.mk (some (flipV (flipV g.rvs))) g.ms)
  rw [flipV_flipV]

/-- The mismatch depends on the propagator only through the states visited. -/
theorem mismatch_visited (φ : RV ℝ → ℝ → RV ℝ) {ψ : RV ℝ → ℝ → Option (RV ℝ)} (l : Leg ℝ)
    (hl : l.throttles.length = 3 * l.nseg) (hs : l.nsegFwd + l.nsegBck = l.nseg) (htof : 0 ≤ l.tof)
    (hT : 0 ≤ l.maxThrust) (hms : 0 < l.ms) (hmf : 0 < l.mf)
    (hF : 0 < l.nsegFwd → ∀ i, i ≤ l.nsegFwd → ψ ((fwdHalf l).before φ i) ((fwdHalf l).dur i) =
      some (φ ((fwdHalf l).before φ i) ((fwdHalf l).dur i)))
    (hB : 0 < l.nsegBck → ∀ i, i ≤ l.nsegBck → ψ (flipV ((bckArgs (bckHalf l)).before φ i)) (-(bckArgs (bckHalf l)).dur i) =
      some (flipV (φ ((bckArgs (bckHalf l)).before φ i) ((bckArgs (bckHalf l)).dur i)))) :
    computeMismatch ψ l = .ok (some ((fwdEnd φ l).1.sub (bckEnd φ l).1), (fwdEnd φ l).2 - (bckEnd φ l).2) := by
  have hc : 0 ≤ l.maxThrust * (l.tof / l.nseg) := mul_nonneg hT (div_nonneg htof (Nat.cast_nonneg _))
  have eF : pass (fwdMachine ψ (l.maxThrust * (l.tof / l.nseg)) (l.isp * G0))
      (l.tof / l.nseg) ((triples l.throttles).take l.nsegFwd) ⟨some l.rvs, l.ms⟩ =
      ⟨some (fwdEnd φ l).1, (fwdEnd φ l).2⟩ := by
    have hn := fwdHalf_n l hl hs
    unfold fwdEnd
    split
    · rename_i h0
      rw [h0, List.take_zero]; rfl
    · rename_i h0
      have := pass_fwd_visited (fwdHalf l) φ (ψ := ψ) l.isp (by omega) (by rw [hn]; exact hF (by omega)) hc hms rfl
      rw [hn] at this
      exact this
  have eB : pass (bckMachine ψ (l.maxThrust * (l.tof / l.nseg)) (l.isp * G0))
      (-(l.tof / l.nseg)) ((triples l.throttles).drop l.nsegFwd).reverse ⟨some l.rvf, l.mf⟩ =
      ⟨some (bckEnd φ l).1, (bckEnd φ l).2⟩ := by
    have hn := bckHalf_n l hl hs
    unfold bckEnd
    split
    · rename_i h0
      rw [List.drop_eq_nil_of_le (by rw [triples_length _ _ hl]; omega)]; rfl
    · rename_i h0
      have := pass_bck_visited (bckHalf l) φ (ψ := ψ) l.isp (by omega) (by rw [hn]; exact hB (by omega)) hc hmf rfl
      rw [hn] at this
      exact this
  unfold computeMismatch
  simp only [fwdPass_eq _ _ _ l.nseg l.nsegFwd _ hl (by omega),
    bckPass_eq _ _ _ l.nseg l.nsegBck _ hl (by omega), Res.ok_bind,
    show l.nseg - l.nsegBck = l.nsegFwd by omega]
  rw [eF, eB]
  rfl

/-! ## Propagators that return less -/

/-- The same mass, and the same state if there is one. -/
def Below (a b : Craft) : Prop := a.m = b.m ∧ ∀ x, a.rv = some x → b.rv = some x

theorem pass_mono {S : Type} {M N : Machine S} {R : S → S → Prop} (hc : ∀ a b t, R a b → R (M.coast a t) (N.coast b t))
    (hk : ∀ a b u, R a b → R (M.kick a u) (N.kick b u)) (dt : ℝ) (us : List (V3 ℝ)) {a b : S} (h : R a b) :
    R (pass M dt us a) (pass N dt us b) := by
  have harcs : ∀ (us : List (V3 ℝ)) (a b : S), R a b → R (arcs M dt us a) (arcs N dt us b) := by
    intro us
    induction us with
    | nil => intro a b h; exact h
    | cons u us ih =>
      intro a b h
      cases us with
      | nil => exact hc _ _ _ (hk _ _ _ h)
      | cons v vs => exact ih _ _ (hc _ _ _ (hk _ _ _ h))
  cases us with
  | nil => exact h
  | cons u us => exact harcs _ _ _ (hc _ _ _ h)

theorem mismatch_mono {φ ψ : RV ℝ → ℝ → Option (RV ℝ)} (h : ∀ x t y, φ x t = some y → ψ x t = some y) (l : Leg ℝ)
    (hl : l.throttles.length = 3 * l.nseg) (hs : l.nsegFwd + l.nsegBck = l.nseg) {d : RV ℝ} {m : ℝ}
    (hm : computeMismatch φ l = .ok (some d, m)) : computeMismatch ψ l = .ok (some d, m) := by
  unfold computeMismatch at hm ⊢
  simp only [fwdPass_eq _ _ _ l.nseg l.nsegFwd _ hl (by omega), bckPass_eq _ _ _ l.nseg l.nsegBck _ hl (by omega), Res.ok_bind,
    show l.nseg - l.nsegBck = l.nsegFwd by omega] at hm ⊢
  have hcoast : ∀ (a b : Craft) t, Below a b → Below (craftCoast φ a t) (craftCoast ψ b t) := by
    intro a b t hab
    refine ⟨hab.1, fun x hx => ?_⟩
    obtain ⟨y, hy, hyx⟩ := Option.bind_eq_some_iff.1 hx
    exact Option.bind_eq_some_iff.2 ⟨y, hab.2 y hy, h _ _ _ hyx⟩
  have hF := pass_mono (M := fwdMachine φ (l.maxThrust * (l.tof / l.nseg)) (l.isp * G0))
    (N := fwdMachine ψ (l.maxThrust * (l.tof / l.nseg)) (l.isp * G0)) (R := Below) hcoast (by
      rintro ⟨ar, am⟩ ⟨br, bm⟩ u ⟨h1, h2⟩
      change am = bm at h1
      subst h1
      refine ⟨rfl, fun x hx => ?_⟩
      obtain ⟨y, hy, hyx⟩ := Option.map_eq_some_iff.1 hx
      exact Option.map_eq_some_iff.2 ⟨y, h2 y hy, hyx⟩) (l.tof / l.nseg) ((triples l.throttles).take l.nsegFwd)
    (a := ⟨some l.rvs, l.ms⟩) (b := ⟨some l.rvs, l.ms⟩) ⟨rfl, fun _ h => h⟩
  have hB := pass_mono (M := bckMachine φ (l.maxThrust * (l.tof / l.nseg)) (l.isp * G0))
    (N := bckMachine ψ (l.maxThrust * (l.tof / l.nseg)) (l.isp * G0)) (R := Below) hcoast (by
      rintro ⟨ar, am⟩ ⟨br, bm⟩ u ⟨h1, h2⟩
      change am = bm at h1
      subst h1
      refine ⟨rfl, fun x hx => ?_⟩
      obtain ⟨y, hy, hyx⟩ := Option.map_eq_some_iff.1 hx
      exact Option.map_eq_some_iff.2 ⟨y, h2 y hy, hyx⟩) (-(l.tof / l.nseg)) ((triples l.throttles).drop l.nsegFwd).reverse
    (a := ⟨some l.rvf, l.mf⟩) (b := ⟨some l.rvf, l.mf⟩) ⟨rfl, fun _ h => h⟩
  have hm := Res.ok.inj hm
  simp only [Prod.mk.injEq] at hm
  obtain ⟨h1, h2⟩ := hm
  obtain ⟨x, hx, h1⟩ := Option.bind_eq_some_iff.1 h1
  obtain ⟨y, hy, h1⟩ := Option.map_eq_some_iff.1 h1
  rw [← hF.1, ← hB.1, h2, hF.2 x hx, hB.2 y hy, ← h1]
  rfl

/-! ## The theorems for the propagator of the code -/

/-- **C43, C58** for the propagator of the code: when the seven mismatch constraints of a leg, computed with it at states in
range, all vanish, the leg can be flown along two-body motions; and when a leg can be flown along two-body motions the mismatch
constraints computed are all zero. -/
theorem C43_kepler {sv : Solver} (hsv : sv.Sound) (l : Leg ℝ) (hmu : 0 < l.mu) (ht : l.throttles.length = 3 * l.nseg)
    (hs : l.nsegFwd + l.nsegBck = l.nseg) (htof : 0 ≤ l.tof) (hT : 0 ≤ l.maxThrust) (hisp : 0 < l.isp) (hms : 0 < l.ms)
    (hmf : 0 < l.mf) {d : RV ℝ} {m : ℝ} (h : computeMismatch (lagrIn sv l.mu) l = .ok (some d, m)) :
    (d = ⟨0, 0⟩ ∧ m = 0) ↔
      Flight (kepLocal l.mu) (l.tof / l.nseg) (l.maxThrust * (l.tof / l.nseg)) (l.isp * G0)
        (((triples l.throttles).take l.nsegFwd).map (fun u => (true, u)) ++
          ((triples l.throttles).drop l.nsegFwd).map (fun u => (false, u)))
        ⟨l.rvs, l.ms⟩ ⟨l.rvf, l.mf⟩ := by
  rw [← C43_mismatch_zero_iff_flyable (kepLocal_flow hmu) l ht hs htof hT hisp hms hmf,
    mismatch_mono (fun x t y => lagrIn_le hsv hmu) l ht hs h]
  constructor
  · rintro ⟨rfl, rfl⟩; rfl
  · intro h
    have h := Res.ok.inj h
    simp only [Prod.mk.injEq, Option.some.injEq] at h
    exact h

/-- The states at which the leg calls the propagator are in range. -/
structure Visits (sv : Solver) (l : Leg ℝ) : Prop where
  fwd : ∀ i, i ≤ l.nsegFwd → InRange l.mu ((fwdHalf l).before (lagrTot sv l.mu) i) ((fwdHalf l).dur i)
  bck : ∀ i, i ≤ l.nsegBck →
    InRange l.mu ((bckArgs (bckHalf l)).before (lagrTot sv l.mu) i) ((bckArgs (bckHalf l)).dur i)

/-- At states in range the mismatch with the propagator of the code is the one with its total version. -/
theorem mismatch_lagr {sv : Solver} (hsv : sv.Sound) (hq : sv.Quick) (l : Leg ℝ) (hmu : 0 < l.mu)
    (hl : l.throttles.length = 3 * l.nseg) (hs : l.nsegFwd + l.nsegBck = l.nseg) (htof : 0 ≤ l.tof)
    (hT : 0 ≤ l.maxThrust) (hms : 0 < l.ms) (hmf : 0 < l.mf) (hv : Visits sv l) :
    computeMismatch (lagr sv l.mu) l = computeMismatch (fun x t => some (lagrTot sv l.mu x t)) l := by
  rw [mismatch_eq (lagrTot sv l.mu) (lagrTot_reversible hsv hq hmu) l hl hs htof hT hms hmf]
  refine mismatch_visited (lagrTot sv l.mu) l hl hs htof hT hms hmf (fun _ i hi => ?_) (fun _ i hi => ?_)
  · have := hv.fwd i hi
    rw [lagr_eq hsv hq hmu this, lagrTot_eq hsv hq hmu this]
  · have := hv.bck i hi
    rw [flipV_rev, lagr_eq hsv hq hmu (inRange_rev.2 this), kepFlow_rev hmu this.1, flipV_rev, lagrTot_eq hsv hq hmu this]

/-- **C43** for the propagator of the code, when its root finder converges: at states in range, the seven mismatch constraints
all vanish if and only if the leg can be flown along two-body motions. -/
theorem C43_kepler_iff {sv : Solver} (hsv : sv.Sound) (hq : sv.Quick) (l : Leg ℝ) (hmu : 0 < l.mu)
    (ht : l.throttles.length = 3 * l.nseg) (hs : l.nsegFwd + l.nsegBck = l.nseg) (htof : 0 ≤ l.tof) (hT : 0 ≤ l.maxThrust)
    (hisp : 0 < l.isp) (hms : 0 < l.ms) (hmf : 0 < l.mf) (hv : Visits sv l) :
    computeMismatch (lagr sv l.mu) l = .ok (some ⟨0, 0⟩, 0) ↔
      Flight (kepLocal l.mu) (l.tof / l.nseg) (l.maxThrust * (l.tof / l.nseg)) (l.isp * G0)
        (((triples l.throttles).take l.nsegFwd).map (fun u => (true, u)) ++
          ((triples l.throttles).drop l.nsegFwd).map (fun u => (false, u)))
        ⟨l.rvs, l.ms⟩ ⟨l.rvf, l.mf⟩ := by
  have h1 := mismatch_lagr hsv hq l hmu ht hs htof hT hms hmf hv
  rw [mismatch_eq (lagrTot sv l.mu) (lagrTot_reversible hsv hq hmu) l ht hs htof hT hms hmf] at h1
  have h2 : computeMismatch (lagrIn sv l.mu) l = computeMismatch (lagr sv l.mu) l := by
    rw [h1]
    refine mismatch_visited (lagrTot sv l.mu) l ht hs htof hT hms hmf (fun _ i hi => ?_) (fun _ i hi => ?_)
    · have := hv.fwd i hi
      unfold lagrIn
      rw [if_pos this, lagr_eq hsv hq hmu this, lagrTot_eq hsv hq hmu this]
    · have := hv.bck i hi
      unfold lagrIn
      rw [flipV_rev, if_pos (inRange_rev.2 this), lagr_eq hsv hq hmu (inRange_rev.2 this), kepFlow_rev hmu this.1, flipV_rev,
        lagrTot_eq hsv hq hmu this]
  rw [h1] at h2 ⊢
  rw [← C43_kepler hsv l hmu ht hs htof hT hisp hms hmf h2]
  simp

/-- **C47** for the propagator of the code. Along every differentiable family of legs, when the states at which
`compute_mc_grad` calls the propagator are in range, each of the seven mismatch constraints is differentiable, and its
derivative is the corresponding row of the arrays returned by `compute_mc_grad` applied to the velocity of the family. -/
theorem C47_kepler {sv : Solver} (hsv : sv.Sound) (hq : sv.Quick)
    {l : ℝ → Leg ℝ} {xs' : Fin 6 → ℝ} {ms' : ℝ} {xf' : Fin 6 → ℝ} {mf' : ℝ} {th' : ℕ → ℝ} {tof' : ℝ}
    (L : LegCurve l xs' ms' xf' mf' th' tof') (R : Regular (l 0)) (hmu : 0 < (l 0).mu) (hv : Visits sv (l 0)) :
    ∃ gs gf g, mcGrad (lagrTot sv (l 0).mu) (lagrStm sv (l 0).mu) (l 0) = (gs, gf, g) ∧ gs.length = 49 ∧ gf.length = 49 ∧
      g.length = 7 * (3 * (l 0).nseg + 1) ∧
      ∃ D : ℝ → RV ℝ × ℝ,
        (∀ᶠ e in 𝓝 0, computeMismatch (lagr sv (l 0).mu) (l e) = .ok (some (D e).1, (D e).2)) ∧
        ∀ r : Fin 7, HasDerivAt (fun e => vec7 (D e).1 (D e).2 r)
          ((∑ j : Fin 6, gs.getD (7 * r + j) 0 * xs' j + gs.getD (7 * r + 6) 0 * ms') +
           (∑ j : Fin 6, gf.getD (7 * r + j) 0 * xf' j + gf.getD (7 * r + 6) 0 * mf') +
           (∑ j ∈ Finset.range (3 * (l 0).nseg), g.getD ((3 * (l 0).nseg + 1) * r + j) 0 * th' j +
            g.getD ((3 * (l 0).nseg + 1) * r + 3 * (l 0).nseg) 0 * tof')) 0 := by
  have hrev := lagrTot_reversible hsv hq hmu
  have dF : ∀ i, i ≤ (l 0).nsegFwd → FlowDeriv (lagrTot sv (l 0).mu) (lagrStm sv (l 0).mu) (l 0).mu
      ((fwdHalf (l 0)).before (lagrTot sv (l 0).mu) i) ((fwdHalf (l 0)).dur i) :=
    fun i hi => lagr_flowDeriv hsv hq hmu (hv.fwd i hi)
  have dB : ∀ i, i ≤ (l 0).nsegBck → FlowDeriv (lagrTot sv (l 0).mu) (lagrStm sv (l 0).mu) (l 0).mu
      ((bckArgs (bckHalf (l 0))).before (lagrTot sv (l 0).mu) i) ((bckArgs (bckHalf (l 0))).dur i) :=
    fun i hi => lagr_flowDeriv hsv hq hmu (hv.bck i hi)
  obtain ⟨gs, gf, g, h1, h2, h3, h4, D, h5, h6⟩ := C47_mc_grad hrev L R dF dB
  refine ⟨gs, gf, g, h1, h2, h3, h4, D, ?_, h6⟩
  have hs := R.split
  -- nearby legs stay in range
  have cont : ∀ {X : ℝ → RV ℝ} {x' : Fin 6 → ℝ}, StateDeriv X x' → ContinuousAt (fun e => pack (X e)) 0 :=
    fun h => continuousAt_pi.2 fun i => (h i).continuousAt
  have eF : 0 < (l 0).nsegFwd → ∀ᶠ e in 𝓝 (0 : ℝ), ∀ i, i ≤ (l 0).nsegFwd →
      InRange (l 0).mu ((fwdHalf (l e)).before (lagrTot sv (l 0).mu) i) ((fwdHalf (l e)).dur i) := by
    intro hpos
    have F := L.fwdFamily R hpos
    have : ∀ᶠ e in 𝓝 (0 : ℝ), ∀ i ∈ Finset.range ((l 0).nsegFwd + 1),
        InRange (l 0).mu ((fwdHalf (l e)).before (lagrTot sv (l 0).mu) i) ((fwdHalf (l e)).dur i) := by
      rw [Filter.eventually_all_finset]
      intro i hi
      have hi := Finset.mem_range_succ_iff.1 hi
      exact inRange_open hmu (hv.fwd i hi) (X := fun e => (fwdHalf (l e)).before (lagrTot sv (l 0).mu) i)
        (T := fun e => (fwdHalf (l e)).dur i) rfl rfl (cont (F.before' dF i hi)) (F.dur' i).continuousAt
    filter_upwards [this] with e he i hi
    exact he i (Finset.mem_range_succ_iff.2 hi)
  have eB : 0 < (l 0).nsegBck → ∀ᶠ e in 𝓝 (0 : ℝ), ∀ i, i ≤ (l 0).nsegBck →
      InRange (l 0).mu ((bckArgs (bckHalf (l e))).before (lagrTot sv (l 0).mu) i) ((bckArgs (bckHalf (l e))).dur i) := by
    intro hpos
    have F := L.bckFamily R hpos
    have : ∀ᶠ e in 𝓝 (0 : ℝ), ∀ i ∈ Finset.range ((l 0).nsegBck + 1),
        InRange (l 0).mu ((bckArgs (bckHalf (l e))).before (lagrTot sv (l 0).mu) i) ((bckArgs (bckHalf (l e))).dur i) := by
      rw [Filter.eventually_all_finset]
      intro i hi
      have hi := Finset.mem_range_succ_iff.1 hi
      exact inRange_open hmu (hv.bck i hi) (X := fun e => (bckArgs (bckHalf (l e))).before (lagrTot sv (l 0).mu) i)
        (T := fun e => (bckArgs (bckHalf (l e))).dur i) rfl rfl (cont (F.before' dB i hi)) (F.dur' i).continuousAt
    filter_upwards [this] with e he i hi
    exact he i (Finset.mem_range_succ_iff.2 hi)
  have e1 : ∀ᶠ e in 𝓝 (0 : ℝ), 0 < (l e).tof := L.tof.continuousAt.eventually_const_lt R.tof
  have e2 : ∀ᶠ e in 𝓝 (0 : ℝ), 0 < (l e).ms := L.ms.continuousAt.eventually_const_lt R.ms
  have e3 : ∀ᶠ e in 𝓝 (0 : ℝ), 0 < (l e).mf := L.mf.continuousAt.eventually_const_lt R.mf
  have eF' : ∀ᶠ e in 𝓝 (0 : ℝ), 0 < (l 0).nsegFwd → ∀ i, i ≤ (l 0).nsegFwd →
      InRange (l 0).mu ((fwdHalf (l e)).before (lagrTot sv (l 0).mu) i) ((fwdHalf (l e)).dur i) := by
    by_cases h : 0 < (l 0).nsegFwd
    · filter_upwards [eF h] with e he _ using he
    · exact Eventually.of_forall fun e h' => absurd h' h
  have eB' : ∀ᶠ e in 𝓝 (0 : ℝ), 0 < (l 0).nsegBck → ∀ i, i ≤ (l 0).nsegBck →
      InRange (l 0).mu ((bckArgs (bckHalf (l e))).before (lagrTot sv (l 0).mu) i) ((bckArgs (bckHalf (l e))).dur i) := by
    by_cases h : 0 < (l 0).nsegBck
    · filter_upwards [eB h] with e he _ using he
    · exact Eventually.of_forall fun e h' => absurd h' h
  filter_upwards [h5, eF', eB', e1, e2, e3] with e h5 hF hB h1 h2 h3
  rw [← h5]
  have hl : (l e).throttles.length = 3 * (l e).nseg := by rw [L.nseg]; exact L.len e
  have hs' : (l e).nsegFwd + (l e).nsegBck = (l e).nseg := by rw [L.nsegFwd, L.nsegBck, L.nseg]; exact hs
  have hT : 0 ≤ (l e).maxThrust := by rw [L.maxThrust]; exact R.maxThrust
  rw [mismatch_eq (lagrTot sv (l 0).mu) hrev (l e) hl hs' h1.le hT h2 h3]
  refine mismatch_visited (lagrTot sv (l 0).mu) (l e) hl hs' h1.le hT h2 h3 (fun hp i hi => ?_) (fun hp i hi => ?_)
  · rw [L.nsegFwd] at hp hi
    have := hF hp i hi
    rw [lagr_eq hsv hq hmu this, lagrTot_eq hsv hq hmu this]
  · rw [L.nsegBck] at hp hi
    have := hB hp i hi
    rw [flipV_rev, lagr_eq hsv hq hmu (inRange_rev.2 this), kepFlow_rev hmu this.1, flipV_rev, lagrTot_eq hsv hq hmu this]

/-! ## A case meeting the hypotheses -/

/-- The circular motion of radius one about a body with `mu = 1`. -/
theorem circle_flow (t : ℝ) : kepFlow ⟨⟨1, 0, 0⟩, ⟨0, 1, 0⟩⟩ 1 t = ⟨⟨cos t, sin t, 0⟩, ⟨-sin t, cos t, 0⟩⟩ := by
  have hT : TwoBody 1 fun t => (⟨⟨cos t, sin t, 0⟩, ⟨-sin t, cos t, 0⟩⟩ : RV ℝ) := by
    have hn : ∀ t : ℝ, V3.norm (⟨cos t, sin t, 0⟩ : V3 ℝ) = 1 := fun t => by
      unfold V3.norm V3.dot
      rw [show cos t * cos t + sin t * sin t + 0 * 0 = 1 by nlinarith [sin_sq_add_cos_sq t], sqrt_one]
    constructor <;> intro t
    · simpa using hasDerivAt_cos t
    · simpa using hasDerivAt_sin t
    · simpa using hasDerivAt_const t (0 : ℝ)
    · have := (hasDerivAt_sin t).neg
      simp only [hn, one_pow, div_one, neg_mul, one_mul]
      exact this
    · simpa [hn] using hasDerivAt_cos t
    · simpa using hasDerivAt_const t (0 : ℝ)
  have := twoBody_unique one_pos hT (by
    intro h
    have := congrArg V3.z h
    simp [angMom, V3.cross] at this) t
  rw [this]
  simp

/-- Two segments on the way around a circle, of half a revolution each: the first is flown forward with a burn along the velocity,
the second backward. -/
noncomputable def circleLeg (e : ℝ) : Leg ℝ :=
  { rvs := ⟨⟨1, 0, 0⟩, ⟨0, 1, 0⟩⟩, ms := 1, throttles := [0, -1 + e, 0, 0, 1, 0], rvf := ⟨⟨1, 0, 0⟩, ⟨0, 1, 0⟩⟩, mf := 1,
    tof := 4 * π, maxThrust := 1 / (20 * π), isp := 1, mu := 1, cut := 1 / 2, nseg := 2, nsegFwd := 1, nsegBck := 1 }

theorem circleLeg_visits {sv : Solver} (hsv : sv.Sound) (hq : sv.Quick) : Visits sv (circleLeg 0) := by
  have hpi := Real.pi_pos
  have range : ∀ (a b t : ℝ), a ^ 2 = 1 → b ≠ 0 → b ^ 2 < 2 → InRange 1 ⟨⟨a, 0, 0⟩, ⟨0, b, 0⟩⟩ t := by
    intro a b t ha hb hb2
    have ha0 : a ≠ 0 := by rintro rfl; norm_num at ha
    have hn : V3.norm (⟨a, 0, 0⟩ : V3 ℝ) = 1 := by
      unfold V3.norm V3.dot
      rw [show a * a + 0 * 0 + 0 * 0 = 1 by nlinarith, sqrt_one]
    have hE : energy ⟨⟨a, 0, 0⟩, ⟨0, b, 0⟩⟩ 1 < 0 := by
      unfold energy
      rw [hn]
      unfold V3.dot
      nlinarith
    refine ⟨?_, hE.ne, fun h => absurd h hE.not_gt⟩
    intro h
    have := congrArg V3.z h
    simp [angMom, V3.cross] at this
    rcases this with h | h
    · exact ha0 h
    · exact hb h
  have hdt : (4 * π / (2 : ℕ)) / 2 = π := by push_cast; ring
  have hc : 1 / (20 * π) * (4 * π / (2 : ℕ)) = 1 / 10 := by push_cast; field_simp; norm_num
  have hd : ∀ i, i ≤ 1 → (fwdHalf (circleLeg 0)).dur i = π := by
    intro i hi
    have hn : (fwdHalf (circleLeg 0)).n = 1 := rfl
    unfold GradArgs.dur
    rw [if_pos (by rw [hn]; omega)]
    exact hdt
  have hd' : ∀ i, i ≤ 1 → (bckArgs (bckHalf (circleLeg 0))).dur i = π := by
    intro i hi
    have hn : (bckArgs (bckHalf (circleLeg 0))).n = 1 := rfl
    unfold GradArgs.dur
    rw [if_pos (by rw [hn]; omega)]
    exact hdt
  have r0 : InRange 1 ⟨⟨1, 0, 0⟩, ⟨0, 1, 0⟩⟩ π := range 1 1 π (by norm_num) (by norm_num) (by norm_num)
  have f0 : lagrTot sv 1 ⟨⟨1, 0, 0⟩, ⟨0, 1, 0⟩⟩ π = ⟨⟨-1, 0, 0⟩, ⟨0, -1, 0⟩⟩ := by
    rw [lagrTot_eq hsv hq one_pos r0, circle_flow]
    simp
  have r1 : InRange 1 ⟨⟨1, 0, 0⟩, ⟨0, -1, 0⟩⟩ π := range 1 (-1) π (by norm_num) (by norm_num) (by norm_num)
  have f1 : lagrTot sv 1 ⟨⟨1, 0, 0⟩, ⟨0, -1, 0⟩⟩ π = ⟨⟨-1, 0, 0⟩, ⟨0, 1, 0⟩⟩ := by
    have h1 : (⟨⟨1, 0, 0⟩, ⟨0, -1, 0⟩⟩ : RV ℝ) = RV.rev ⟨⟨1, 0, 0⟩, ⟨0, 1, 0⟩⟩ := by
      unfold RV.rev; apply RV.ext <;> ext <;> simp
    have h2 := kepFlow_rev one_pos (range 1 1 π (by norm_num) (by norm_num) (by norm_num)).1 (-π)
    rw [neg_neg] at h2
    rw [lagrTot_eq hsv hq one_pos r1, h1, h2, circle_flow]
    unfold RV.rev
    apply RV.ext <;> ext <;> simp
  constructor
  · intro i hi
    change i ≤ 1 at hi
    rw [hd i hi]
    interval_cases i
    · exact r0
    · have h0 : (fwdHalf (circleLeg 0)).before (lagrTot sv 1) 0 = ⟨⟨1, 0, 0⟩, ⟨0, 1, 0⟩⟩ := rfl
      have e : (fwdHalf (circleLeg 0)).Dv 0 = ⟨0, -(1 / 10), 0⟩ := by
        unfold GradArgs.Dv
        have h1 : (fwdHalf (circleLeg 0)).u 0 = ⟨0, -1 + 0, 0⟩ := rfl
        have h2 : (fwdHalf (circleLeg 0)).c = 1 / 10 := hc
        have h3 : (fwdHalf (circleLeg 0)).m 0 = 1 := rfl
        rw [h1, h2, h3]
        ext <;> norm_num
      have hb : (fwdHalf (circleLeg 0)).before (lagrTot sv 1) 1 = ⟨⟨-1, 0, 0⟩, ⟨0, -1 + -(1 / 10), 0⟩⟩ := by
        rw [GradArgs.before, h0, hd 0 (by norm_num), f0, e]
        simp
      change InRange 1 ((fwdHalf (circleLeg 0)).before (lagrTot sv 1) 1) π
      rw [hb]
      exact range _ _ _ (by norm_num) (by norm_num) (by norm_num)
  · intro i hi
    change i ≤ 1 at hi
    rw [hd' i hi]
    interval_cases i
    · have : (bckArgs (bckHalf (circleLeg 0))).before (lagrTot sv 1) 0 = ⟨⟨1, 0, 0⟩, ⟨0, -1, 0⟩⟩ := by
        change flipV ⟨⟨1, 0, 0⟩, ⟨0, 1, 0⟩⟩ = _
        unfold flipV; apply RV.ext <;> ext <;> simp
      exact this ▸ r1
    · have h0 : (bckArgs (bckHalf (circleLeg 0))).before (lagrTot sv 1) 0 = ⟨⟨1, 0, 0⟩, ⟨0, -1, 0⟩⟩ := by
        change flipV ⟨⟨1, 0, 0⟩, ⟨0, 1, 0⟩⟩ = _
        unfold flipV; apply RV.ext <;> ext <;> simp
      have hb : (bckArgs (bckHalf (circleLeg 0))).before (lagrTot sv 1) 1 = ⟨⟨-1, 0, 0⟩, ⟨0, 1 + 1 / 10, 0⟩⟩ := by
        have e : (bckArgs (bckHalf (circleLeg 0))).Dv 0 = ⟨0, 1 / 10, 0⟩ := by
          unfold GradArgs.Dv
          have h1 : (bckArgs (bckHalf (circleLeg 0))).u 0 = ⟨0, 1, 0⟩ := rfl
          have h2 : (bckArgs (bckHalf (circleLeg 0))).c = 1 / 10 := hc
          have h3 : (bckArgs (bckHalf (circleLeg 0))).m 0 = 1 := rfl
          rw [h1, h2, h3]
          ext <;> norm_num
        rw [GradArgs.before, h0, hd' 0 (by norm_num), f1, e]
        simp
      change InRange 1 ((bckArgs (bckHalf (circleLeg 0))).before (lagrTot sv 1) 1) π
      rw [hb]
      exact range _ _ _ (by norm_num) (by norm_num) (by norm_num)

/-- The hypotheses of `C47_kepler` and `C43_kepler` are met by this leg, for every accurate solver that converges. -/
example {sv : Solver} (hsv : sv.Sound) (hq : sv.Quick) : LegCurve circleLeg 0 0 0 0 (fun j => if j = 1 then 1 else 0) 0 ∧
    Regular (circleLeg 0) ∧ 0 < (circleLeg 0).mu ∧ Visits sv (circleLeg 0) ∧
    ∃ d m, computeMismatch (lagr sv 1) (circleLeg 0) = .ok (some d, m) := by
  have hpi := Real.pi_pos
  have R : Regular (circleLeg 0) := by
    refine ⟨by norm_num [circleLeg], rfl, ?_, ?_, ?_, ?_, ?_⟩
    · change 0 < 4 * π; positivity
    · change 0 ≤ 1 / (20 * π); positivity
    · norm_num [circleLeg]
    · norm_num [circleLeg]
    · intro u hu
      simp only [circleLeg, triples, List.mem_cons, List.not_mem_nil, or_false] at hu
      rcases hu with rfl | rfl
      · intro h; have := congrArg V3.y h; norm_num at this
      · intro h; have := congrArg V3.y h; norm_num at this
  refine ⟨?_, R, one_pos, circleLeg_visits hsv hq, ?_⟩
  · have hid : HasDerivAt (fun e : ℝ => -1 + e) 1 0 := (hasDerivAt_id (0 : ℝ)).const_add (-1)
    have hc : ∀ c : ℝ, HasDerivAt (fun _ : ℝ => c) 0 0 := fun c => hasDerivAt_const _ _
    refine ⟨fun _ => rfl, fun _ => rfl, fun _ => rfl, fun _ => rfl, fun _ => rfl, fun _ => rfl, fun _ => rfl,
      fun r => hc (vec ⟨⟨1, 0, 0⟩, ⟨0, 1, 0⟩⟩ r), fun r => hc (vec ⟨⟨1, 0, 0⟩, ⟨0, 1, 0⟩⟩ r), hc 1, hc 1, ?_, hc _⟩
    intro j hj
    change j < 6 at hj
    interval_cases j
    · exact hc _
    · exact hid
    all_goals exact hc _
  · have := mismatch_lagr hsv hq (circleLeg 0) one_pos rfl rfl R.tof.le R.maxThrust R.ms R.mf (circleLeg_visits hsv hq)
    rw [mismatch_eq _ (lagrTot_reversible hsv hq (mu := (circleLeg 0).mu) one_pos) (circleLeg 0) rfl rfl R.tof.le R.maxThrust R.ms R.mf] at this
    exact ⟨_, _, this⟩

end Kep3.SF
