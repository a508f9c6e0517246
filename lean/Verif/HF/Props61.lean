import Verif.HF.Grad
import Mathlib.Tactic.IntervalCases

/-!
# C61: the gradient of the high-fidelity leg
-/

namespace Kep3.HF

open Kep3
open Kep3.SF (usub triple)
open Matrix

/-- Components of a vector. -/
def vec3 (u : V3 ℝ) : Fin 3 → ℝ := ![u.x, u.y, u.z]

/-- The flow is differentiable at thrust `u`, duration `t` and state `x`: along every differentiable curve
through them the derivative is given by the sensitivities the variational integrator returns, and the
change with the duration by the transported right-hand side at the start. -/
def SegDiff (E : Env ℝ) (φ : Flow) (σ : FlowSens) (mu veff : ℝ) (u : V3 ℝ) (t : ℝ) (x : St ℝ) : Prop :=
  ∀ (us : ℝ → V3 ℝ) (ts : ℝ → ℝ) (xs : ℝ → St ℝ) (u' : Fin 3 → ℝ) (t' : ℝ) (x' : Fin 7 → ℝ),
    us 0 = u → ts 0 = t → xs 0 = x →
    (∀ k, HasDerivAt (fun e => vec3 (us e) k) (u' k) 0) → HasDerivAt ts t' 0 →
    (∀ k, HasDerivAt (fun e => (xs e).vec k) (x' k) 0) →
    ∀ r, HasDerivAt (fun e => (φ mu veff (us e) (ts e) (xs e)).vec r)
      (((of (σ mu veff u t x).dxdx *ᵥ x') r + (of (σ mu veff u t x).dxdu *ᵥ u') r) +
        t' * (of (σ mu veff u t x).dxdx *ᵥ (E.rhs mu veff u x).vec) r) 0

/-- A differentiable family of legs: states, throttles and time of flight vary, the rest is fixed. -/
structure LegCurve (E : Env ℝ) (l : ℝ → Leg ℝ) (xs' xf' : Fin 7 → ℝ) (th' : ℕ → ℝ) (tof' : ℝ) : Prop where
  sized : ∀ e, (l e).Sized
  inStep : ∀ e, (l e).InStep E
  nseg : ∀ e, (l e).nseg = (l 0).nseg
  nsegFwd : ∀ e, (l e).nsegFwd = (l 0).nsegFwd
  maxThrust : ∀ e, (l e).maxThrust = (l 0).maxThrust
  mu : ∀ e, (l e).mu = (l 0).mu
  isp : ∀ e, (l e).isp = (l 0).isp
  rvms : ∀ k, HasDerivAt (fun e => (l e).rvms.vec k) (xs' k) 0
  rvmf : ∀ k, HasDerivAt (fun e => (l e).rvmf.vec k) (xf' k) 0
  throttles : ∀ j < 3 * (l 0).nseg, HasDerivAt (fun e => (l e).throttles.getD j 0) (th' j) 0
  tof : HasDerivAt (fun e => (l e).tof) tof' 0

section
variable {E : Env ℝ} {φ : Flow} {σ : FlowSens} {l : ℝ → Leg ℝ} {xs' xf' : Fin 7 → ℝ} {th' : ℕ → ℝ} {tof' : ℝ}

/-- Velocity of the thrust of a segment. -/
def thrust' (T : ℝ) (th' : ℕ → ℝ) (i : ℕ) : Fin 3 → ℝ := fun k => T * th' (3 * i + k)

theorem thrust_deriv (L : LegCurve E l xs' xf' th' tof') {i : ℕ} (hi : i < (l 0).nseg) (k : Fin 3) :
    HasDerivAt (fun e => vec3 ((l e).thrust i) k) (thrust' (l 0).maxThrust th' i k) 0 := by
  have key : ∀ j < 3 * (l 0).nseg, HasDerivAt (fun e => (l e).thrusts.getD j 0) ((l 0).maxThrust * th' j) 0 := by
    intro j hj
    have h := (L.throttles j hj).mul_const (l 0).maxThrust
    rw [mul_comm] at h
    refine h.congr_of_eventuallyEq (Filter.Eventually.of_forall fun e => ?_)
    show (l e).thrusts.getD j 0 = _
    rw [(L.inStep e).thrusts]
    simp only [List.getD_eq_getElem?_getD, List.getElem?_map]
    have : j < (l e).throttles.length := by rw [(L.sized e).throttles, L.nseg e]; exact hj
    rw [List.getElem?_eq_getElem this, ← L.maxThrust e]
    rfl
  unfold vec3 Leg.thrust thrust'
  fin_cases k
  · simpa using key (3 * i) (by omega)
  · simpa using key (3 * i + 1) (by omega)
  · simpa using key (3 * i + 2) (by omega)

/-- State sensitivity of segment `i` of the leg at the centre of the family. -/
noncomputable def segM (φ : Flow) (σ : FlowSens) (l : Leg ℝ) (i : ℕ) : M7 := of (l.segSens φ σ i).dxdx
/-- Thrust sensitivity of segment `i`. -/
noncomputable def segU (φ : Flow) (σ : FlowSens) (l : Leg ℝ) (i : ℕ) : Matrix (Fin 7) (Fin 3) ℝ :=
  of (l.segSens φ σ i).dxdu
/-- State derivative at the start of segment `i`. -/
noncomputable def segF (E : Env ℝ) (φ : Flow) (l : Leg ℝ) (i : ℕ) : Fin 7 → ℝ :=
  (E.rhs l.tas.mu l.tas.veff (l.thrust i) (l.segState φ i)).vec

/-- Velocity of the state at the start of forward segment `i`. -/
noncomputable def fwdVel (E : Env ℝ) (φ : Flow) (σ : FlowSens) (l : Leg ℝ) (xs' : Fin 7 → ℝ) (th' : ℕ → ℝ)
    (tof' : ℝ) : ℕ → Fin 7 → ℝ
  | 0 => xs'
  | i + 1 => segM φ σ l i *ᵥ fwdVel E φ σ l xs' th' tof' i + segU φ σ l i *ᵥ thrust' l.maxThrust th' i +
      (tof' / l.nseg) • (segM φ σ l i *ᵥ segF E φ l i)

/-- Velocity of the state at the start (later end) of the `k`-th backward segment. -/
noncomputable def bckVel (E : Env ℝ) (φ : Flow) (σ : FlowSens) (l : Leg ℝ) (xf' : Fin 7 → ℝ) (th' : ℕ → ℝ)
    (tof' : ℝ) : ℕ → Fin 7 → ℝ
  | 0 => xf'
  | k + 1 => segM φ σ l (l.nseg - 1 - k) *ᵥ bckVel E φ σ l xf' th' tof' k +
      segU φ σ l (l.nseg - 1 - k) *ᵥ thrust' l.maxThrust th' (l.nseg - 1 - k) -
      (tof' / l.nseg) • (segM φ σ l (l.nseg - 1 - k) *ᵥ segF E φ l (l.nseg - 1 - k))

/-- All segments of the leg are flown in the domain of differentiability. -/
def AllDiff (E : Env ℝ) (φ : Flow) (σ : FlowSens) (l : Leg ℝ) : Prop :=
  ∀ i < l.nseg, SegDiff E φ σ l.tas.mu l.tas.veff (l.thrust i) (l.segDt i) (l.segState φ i)

theorem tas_const (L : LegCurve E l xs' xf' th' tof') (e : ℝ) :
    (l e).tas.mu = (l 0).tas.mu ∧ (l e).tas.veff = (l 0).tas.veff := by
  rw [(L.inStep e).mu, (L.inStep 0).mu, (L.inStep e).veff, (L.inStep 0).veff, L.mu e, L.isp e]
  exact ⟨rfl, rfl⟩

theorem dt_deriv (L : LegCurve E l xs' xf' th' tof') :
    HasDerivAt (fun e => (l e).tof / ((l e).nseg : ℝ)) (tof' / (l 0).nseg) 0 := by
  have := L.tof.div_const ((l 0).nseg : ℝ)
  refine this.congr_of_eventuallyEq (Filter.Eventually.of_forall fun e => ?_)
  show (l e).tof / ((l e).nseg : ℝ) = (l e).tof / ((l 0).nseg : ℝ)
  rw [L.nseg e]

theorem fwd_deriv (L : LegCurve E l xs' xf' th' tof') (hD : AllDiff E φ σ (l 0)) (i : ℕ)
    (hi : i ≤ (l 0).nsegFwd) (r : Fin 7) :
    HasDerivAt (fun e => ((l e).fwdState φ i).vec r) (fwdVel E φ σ (l 0) xs' th' tof' i r) 0 := by
  induction i generalizing r with
  | zero => exact L.rvms r
  | succ i ih =>
    have hs := (L.sized 0).sum
    have hin : i < (l 0).nseg := by omega
    have hd := hD i hin
    have hst : (l 0).segState φ i = (l 0).fwdState φ i := by unfold Leg.segState; rw [if_pos (by omega)]
    have hdt : (l 0).segDt i = (l 0).tof / (l 0).nseg := by unfold Leg.segDt; rw [if_pos (by omega)]
    have := hd (fun e => (l e).thrust i) (fun e => (l e).tof / (l e).nseg) (fun e => (l e).fwdState φ i)
      (thrust' (l 0).maxThrust th' i) (tof' / (l 0).nseg) (fwdVel E φ σ (l 0) xs' th' tof' i)
      rfl hdt.symm hst.symm (thrust_deriv L hin) (dt_deriv L) (fun k => ih (by omega) k) r
    refine this.congr_of_eventuallyEq (Filter.Eventually.of_forall fun e => ?_)
    show (φ (l e).tas.mu (l e).tas.veff _ _ _).vec r = _
    rw [(tas_const L e).1, (tas_const L e).2]

theorem bck_deriv (L : LegCurve E l xs' xf' th' tof') (hD : AllDiff E φ σ (l 0)) (i : ℕ)
    (hi : i ≤ (l 0).nsegBck) (r : Fin 7) :
    HasDerivAt (fun e => ((l e).bckState φ i).vec r) (bckVel E φ σ (l 0) xf' th' tof' i r) 0 := by
  induction i generalizing r with
  | zero => exact L.rvmf r
  | succ i ih =>
    have hs := (L.sized 0).sum
    have hin : (l 0).nseg - 1 - i < (l 0).nseg := by omega
    have hd := hD _ hin
    have hst : (l 0).segState φ ((l 0).nseg - 1 - i) = (l 0).bckState φ i := by
      unfold Leg.segState
      rw [if_neg (by omega), show (l 0).nseg - 1 - ((l 0).nseg - 1 - i) = i by omega]
    have hdt : (l 0).segDt ((l 0).nseg - 1 - i) = -((l 0).tof / (l 0).nseg) := by
      unfold Leg.segDt; rw [if_neg (by omega)]
    have := hd (fun e => (l e).thrust ((l 0).nseg - 1 - i)) (fun e => -((l e).tof / (l e).nseg))
      (fun e => (l e).bckState φ i)
      (thrust' (l 0).maxThrust th' ((l 0).nseg - 1 - i)) (-(tof' / (l 0).nseg)) (bckVel E φ σ (l 0) xf' th' tof' i)
      rfl hdt.symm hst.symm (thrust_deriv L hin) (dt_deriv L).neg (fun k => ih (by omega) k) r
    have h2 := this.congr_of_eventuallyEq (f₁ := fun e => ((l e).bckState φ (i + 1)).vec r)
      (Filter.Eventually.of_forall fun e => by
        show (φ (l e).tas.mu (l e).tas.veff ((l e).thrust ((l e).nseg - 1 - i)) _ _).vec r = _
        simp only [(tas_const L e).1, (tas_const L e).2, L.nseg e])
    refine h2.congr_deriv ?_
    show _ + -(tof' / ((l 0).nseg : ℝ)) * _ = _ - (tof' / ((l 0).nseg : ℝ)) • _
    rw [smul_eq_mul, neg_mul, sub_eq_add_neg]
    rfl

/-- The list of state sensitivities. -/
noncomputable def segMs (φ : Flow) (σ : FlowSens) (l : Leg ℝ) : List M7 := (List.range l.nseg).map (segM φ σ l)

theorem segMs_length (l : Leg ℝ) : (segMs φ σ l).length = l.nseg := by simp [segMs]
theorem segMs_get (l : Leg ℝ) {i : ℕ} (h : i < (segMs φ σ l).length) : (segMs φ σ l)[i] = segM φ σ l i := by
  simp [segMs]

theorem fwd_unroll (l : Leg ℝ) (hnf : l.nsegFwd ≤ l.nseg) (i : ℕ) (hi : i ≤ l.nsegFwd) :
    fwdSens l.nsegFwd (segMs φ σ l) i *ᵥ fwdVel E φ σ l xs' th' tof' i =
      fwdSens l.nsegFwd (segMs φ σ l) 0 *ᵥ xs' + ∑ k ∈ Finset.range i,
        ((fwdSens l.nsegFwd (segMs φ σ l) (k + 1) * segU φ σ l k) *ᵥ thrust' l.maxThrust th' k +
          (tof' / l.nseg) • (fwdSens l.nsegFwd (segMs φ σ l) k *ᵥ segF E φ l k)) := by
  induction i with
  | zero => simp [fwdVel]
  | succ i ih =>
    have hl := segMs_length (φ := φ) (σ := σ) l
    have hstep := fwdSens_step (nf := l.nsegFwd) (M := segMs φ σ l) (i := i) (by omega) (by omega)
    rw [segMs_get] at hstep
    rw [Finset.sum_range_succ, ← add_assoc, ← ih (by omega)]
    show fwdSens _ _ (i + 1) *ᵥ (_ + _ + _) = _
    rw [mulVec_add, mulVec_add, mulVec_mulVec, ← hstep, mulVec_mulVec, mulVec_smul, mulVec_mulVec, ← hstep, add_assoc]

theorem bck_unroll (l : Leg ℝ) (hsum : l.nsegFwd + l.nsegBck = l.nseg) (i : ℕ) (hi : i ≤ l.nsegBck) :
    (((segMs φ σ l).drop l.nsegFwd).take (l.nsegBck - i)).prod *ᵥ bckVel E φ σ l xf' th' tof' i =
      ((segMs φ σ l).drop l.nsegFwd).prod *ᵥ xf' + ∑ k ∈ Finset.range i,
        (((((segMs φ σ l).drop l.nsegFwd).take (l.nsegBck - 1 - k)).prod * segU φ σ l (l.nseg - 1 - k)) *ᵥ
            thrust' l.maxThrust th' (l.nseg - 1 - k) -
          (tof' / l.nseg) • ((((segMs φ σ l).drop l.nsegFwd).take (l.nsegBck - k)).prod *ᵥ
            segF E φ l (l.nseg - 1 - k))) := by
  have hl := segMs_length (φ := φ) (σ := σ) l
  induction i with
  | zero =>
    rw [List.take_of_length_le (by rw [List.length_drop]; omega)]
    simp [bckVel]
  | succ i ih =>
    have hstep := bck_step (nf := l.nsegFwd) (M := segMs φ σ l) (j := l.nsegBck - 1 - i) (by omega)
    rw [segMs_get, show l.nsegBck - 1 - i + 1 = l.nsegBck - i by omega,
      show l.nsegFwd + (l.nsegBck - 1 - i) = l.nseg - 1 - i by omega] at hstep
    rw [Finset.sum_range_succ, ← add_assoc, ← ih (by omega), show l.nsegBck - (i + 1) = l.nsegBck - 1 - i by omega]
    show _ *ᵥ (_ + _ - _) = _
    rw [mulVec_sub, mulVec_add, mulVec_mulVec, ← hstep, mulVec_mulVec, mulVec_smul, mulVec_mulVec, ← hstep,
      add_sub_assoc]

/-- The derivative of the mismatch in terms of the assembled blocks. -/
theorem vel_eq (l : Leg ℝ) (hsum : l.nsegFwd + l.nsegBck = l.nseg) (r : Fin 7) :
    fwdVel E φ σ l xs' th' tof' l.nsegFwd r - bckVel E φ σ l xf' th' tof' l.nsegBck r =
      (((segMs φ σ l).take l.nsegFwd).reverse.prod *ᵥ xs') r + ((-((segMs φ σ l).drop l.nsegFwd).prod) *ᵥ xf') r +
      (∑ i ∈ Finset.range l.nseg,
        (throttleBlock l.nsegFwd (segMs φ σ l) (segU φ σ l) i *ᵥ thrust' l.maxThrust th' i) r +
       tofColumn l.nseg l.nsegFwd (segMs φ σ l) (segF E φ l) r * tof') := by
  have hf := congrFun (fwd_unroll (E := E) (φ := φ) (σ := σ) (xs' := xs') (th' := th') (tof' := tof') l (by omega)
    l.nsegFwd le_rfl) r
  have hb := congrFun (bck_unroll (E := E) (φ := φ) (σ := σ) (xf' := xf') (th' := th') (tof' := tof') l hsum
    l.nsegBck le_rfl) r
  rw [fwdSens_end, one_mulVec] at hf
  rw [Nat.sub_self, List.take_zero, List.prod_nil, one_mulVec] at hb
  rw [hf, hb]
  have hsplit : ∀ g : ℕ → ℝ, ∑ i ∈ Finset.range l.nseg, g i =
      ∑ i ∈ Finset.range l.nsegFwd, g i + ∑ k ∈ Finset.range l.nsegBck, g (l.nseg - 1 - k) := by
    intro g
    rw [← hsum, Finset.sum_range_add]
    congr 1
    rw [← Finset.sum_range_reflect]
    refine Finset.sum_congr rfl fun k hk => ?_
    rw [Finset.mem_range] at hk
    congr 1; omega
  unfold tofColumn
  rw [hsplit, hsplit]
  simp only [Pi.add_apply, Finset.sum_apply, Pi.sub_apply, Pi.smul_apply, smul_eq_mul, neg_mulVec, Pi.neg_apply,
    Finset.sum_add_distrib, Finset.sum_sub_distrib]
  have c1 : ∀ i ∈ Finset.range l.nsegFwd,
      (throttleBlock l.nsegFwd (segMs φ σ l) (segU φ σ l) i *ᵥ thrust' l.maxThrust th' i) r =
      ((fwdSens l.nsegFwd (segMs φ σ l) (i + 1) * segU φ σ l i) *ᵥ thrust' l.maxThrust th' i) r := by
    intro i hi
    rw [Finset.mem_range] at hi
    unfold throttleBlock; rw [if_pos hi]
  have c2 : ∀ k ∈ Finset.range l.nsegBck,
      (throttleBlock l.nsegFwd (segMs φ σ l) (segU φ σ l) (l.nseg - 1 - k) *ᵥ
        thrust' l.maxThrust th' (l.nseg - 1 - k)) r =
      -(((((segMs φ σ l).drop l.nsegFwd).take (l.nsegBck - 1 - k)).prod * segU φ σ l (l.nseg - 1 - k)) *ᵥ
            thrust' l.maxThrust th' (l.nseg - 1 - k)) r := by
    intro k hk
    rw [Finset.mem_range] at hk
    unfold throttleBlock
    rw [if_neg (by omega), neg_mulVec, show l.nseg - 1 - k - l.nsegFwd = l.nsegBck - 1 - k by omega]
    rfl
  have c3 : ∀ i ∈ Finset.range l.nsegFwd,
      ((if i < l.nsegFwd then fwdSens l.nsegFwd (segMs φ σ l) i else bckSens l.nsegFwd (segMs φ σ l) i) *ᵥ
        segF E φ l i) r = (fwdSens l.nsegFwd (segMs φ σ l) i *ᵥ segF E φ l i) r := by
    intro i hi
    rw [Finset.mem_range] at hi
    rw [if_pos hi]
  have c4 : ∀ k ∈ Finset.range l.nsegBck,
      ((if l.nseg - 1 - k < l.nsegFwd then fwdSens l.nsegFwd (segMs φ σ l) (l.nseg - 1 - k)
        else bckSens l.nsegFwd (segMs φ σ l) (l.nseg - 1 - k)) *ᵥ segF E φ l (l.nseg - 1 - k)) r =
      ((((segMs φ σ l).drop l.nsegFwd).take (l.nsegBck - k)).prod *ᵥ segF E φ l (l.nseg - 1 - k)) r := by
    intro k hk
    rw [Finset.mem_range] at hk
    rw [if_neg (by omega)]
    unfold bckSens
    rw [show l.nseg - 1 - k + 1 - l.nsegFwd = l.nsegBck - k by omega]
  rw [Finset.sum_congr rfl c1, Finset.sum_congr rfl c2, Finset.sum_congr rfl c3, Finset.sum_congr rfl c4]
  rw [← Finset.mul_sum, ← Finset.mul_sum, Finset.sum_neg_distrib]
  unfold fwdSens
  rw [List.drop_zero]
  ring

/-- `compute_mc_grad` on exact integrators. -/
theorem mcGrad_exact (hE : ExactFlow E φ σ) {l : Leg ℝ} (hl : l.Sized) (hs : l.InStep E) :
    (computeMcGrad E l).1 = .ok
      { gradRvm := ((segMs φ σ l).take l.nsegFwd).reverse.prod
        gradRvmBck := -((segMs φ σ l).drop l.nsegFwd).prod
        gradFinal := layout l.nseg (fun r i k => throttleBlock l.nsegFwd (segMs φ σ l) (segU φ σ l) i r k)
          (tofColumn l.nseg l.nsegFwd (segMs φ σ l) (segF E φ l)) } := by
  have h := allGradients_exact hE hl hs
  unfold computeMcGrad
  rw [Mut.bind_run]
  have hf : ∀ l' : Leg ℝ, l' = (computeAllGradients E l).2 →
      l'.nseg = l.nseg ∧ l'.nsegFwd = l.nsegFwd ∧ l'.nsegBck = l.nsegBck := by
    rintro l' rfl; exact ⟨rfl, rfl, rfl⟩
  revert h hf
  generalize computeAllGradients E l = x
  rcases x with ⟨x1, x2⟩
  intro h hf
  obtain ⟨f1, f2, f3⟩ := hf x2 rfl
  dsimp only at h
  subst h
  dsimp only
  rw [Mut.read_run, f1, f2, f3]
  dsimp only
  have hfit := hl.fit
  rw [C51_assembly (by omega) hl.sum (by simp) (by simp) (by simp)]
  refine congrArg Res.ok ?_
  have e1 : List.map (fun s : Sens ℝ => of s.dxdx) (List.map (l.segSens φ σ) (List.range l.nseg)) = segMs φ σ l := by
    rw [List.map_map]; rfl
  rw [e1]
  congr 1
  unfold layout
  refine congrArg (fun g => (List.finRange 7).flatMap g) (funext fun r => ?_)
  congr 1
  · refine List.flatMap_congr fun i hi => ?_
    rw [List.mem_range] at hi
    refine List.map_congr_left fun k _ => ?_
    unfold throttleBlock
    simp [List.getD_eq_getElem?_getD, List.getElem?_range hi]
    rfl
  · unfold tofColumn
    congr 2
    refine Finset.sum_congr rfl fun i hi => ?_
    rw [Finset.mem_range] at hi
    simp [List.getD_eq_getElem?_getD, List.getElem?_range hi]
    rfl

/-- **C61, what the code returns.** Along every differentiable family of legs each mismatch constraint is
differentiable; its derivative is the row of `grad_rvm` applied to the velocity of the initial state, plus
that of `grad_rvm_bck` applied to the final one, plus that of the last array applied to the velocity of
the *thrusts* (maximum thrust times throttles) and of the time of flight. -/
theorem C61_gradient_wrt_thrusts (hE : ExactFlow E φ σ) (L : LegCurve E l xs' xf' th' tof')
    (hD : AllDiff E φ σ (l 0)) :
    ∃ g, (computeMcGrad E (l 0)).1 = .ok g ∧ g.gradFinal.length = 7 * (3 * (l 0).nseg + 1) ∧
      ∃ D : ℝ → St ℝ, (∀ e, (computeMismatch E (l e)).1 = .ok (D e)) ∧
        ∀ r : Fin 7, HasDerivAt (fun e => (D e).vec r)
          (∑ k, g.gradRvm r k * xs' k + ∑ k, g.gradRvmBck r k * xf' k +
            (∑ i ∈ Finset.range (l 0).nseg, ∑ k : Fin 3,
              g.gradFinal.getD ((3 * (l 0).nseg + 1) * r + (3 * i + k)) 0 * ((l 0).maxThrust * th' (3 * i + k)) +
             g.gradFinal.getD ((3 * (l 0).nseg + 1) * r + 3 * (l 0).nseg) 0 * tof')) 0 := by
  refine ⟨_, mcGrad_exact hE (L.sized 0) (L.inStep 0), by dsimp only; rw [layout_length], _,
    fun e => mismatch_exact hE (L.sized e), fun r => ?_⟩
  have h1 := fwd_deriv L hD (l 0).nsegFwd le_rfl r
  have h2 := bck_deriv L hD (l 0).nsegBck le_rfl r
  have hnb : ∀ e, (l e).nsegBck = (l 0).nsegBck := fun e => by
    have := (L.sized e).sum; have := (L.sized 0).sum; have := L.nseg e; have := L.nsegFwd e; omega
  have h3 := (h1.sub h2).congr_of_eventuallyEq (f₁ := fun e =>
      (St.subWith E ((l e).fwdState φ (l e).nsegFwd) ((l e).bckState φ (l e).nsegBck)).vec r)
    (Filter.Eventually.of_forall fun e => by
      show _ = ((l e).fwdState φ (l 0).nsegFwd).vec r - ((l e).bckState φ (l 0).nsegBck).vec r
      simp only [L.nsegFwd e, hnb e]
      unfold St.subWith St.vec
      simp only [hE.sub]
      fin_cases r <;> rfl)
  refine h3.congr_deriv ?_
  rw [vel_eq (l 0) (L.sized 0).sum r]
  congr 1
  congr 1
  · refine Finset.sum_congr rfl fun i hi => ?_
    rw [Finset.mem_range] at hi
    rw [mulVec, dotProduct]
    refine Finset.sum_congr rfl fun k _ => ?_
    rw [layout_throttle _ _ r hi k]
    rfl
  · rw [layout_tof]

/-- **C61, partial.** With maximum thrust one, `compute_mc_grad` returns the derivative of the mismatch
with respect to initial state, final state, throttles and time of flight.
Missing for the full claim: other maximum thrusts, for which it is false (`C61_missing_factor`). -/
theorem C61_mc_grad_partial (hE : ExactFlow E φ σ) (L : LegCurve E l xs' xf' th' tof')
    (hD : AllDiff E φ σ (l 0)) (hT : (l 0).maxThrust = 1) :
    ∃ g, (computeMcGrad E (l 0)).1 = .ok g ∧ g.gradFinal.length = 7 * (3 * (l 0).nseg + 1) ∧
      ∃ D : ℝ → St ℝ, (∀ e, (computeMismatch E (l e)).1 = .ok (D e)) ∧
        ∀ r : Fin 7, HasDerivAt (fun e => (D e).vec r)
          (∑ k, g.gradRvm r k * xs' k + ∑ k, g.gradRvmBck r k * xf' k +
            (∑ i ∈ Finset.range (l 0).nseg, ∑ k : Fin 3,
              g.gradFinal.getD ((3 * (l 0).nseg + 1) * r + (3 * i + k)) 0 * th' (3 * i + k) +
             g.gradFinal.getD ((3 * (l 0).nseg + 1) * r + 3 * (l 0).nseg) 0 * tof')) 0 := by
  obtain ⟨g, h1, h2, D, h3, h4⟩ := C61_gradient_wrt_thrusts hE L hD
  refine ⟨g, h1, h2, D, h3, fun r => ?_⟩
  have := h4 r
  simpa only [hT, one_mul] using this

/-- **C61 fails for other maximum thrusts.** If only one throttle component varies, at unit rate, and the
entry returned for it is not zero, that entry is not the derivative of the mismatch unless the maximum
thrust is one. -/
theorem C61_missing_factor (hE : ExactFlow E φ σ) {i : ℕ} {k : Fin 3} (hi : i < (l 0).nseg)
    (L : LegCurve E l 0 0 (fun j => if j = 3 * i + k then 1 else 0) 0)
    (hD : AllDiff E φ σ (l 0)) (hT : (l 0).maxThrust ≠ 1) {g : RelGrad}
    (hg : (computeMcGrad E (l 0)).1 = .ok g) {D : ℝ → St ℝ} (hmis : ∀ e, (computeMismatch E (l e)).1 = .ok (D e))
    (r : Fin 7) (hne : g.gradFinal.getD ((3 * (l 0).nseg + 1) * r + (3 * i + k)) 0 ≠ 0) :
    ¬HasDerivAt (fun e => (D e).vec r) (g.gradFinal.getD ((3 * (l 0).nseg + 1) * r + (3 * i + k)) 0) 0 := by
  obtain ⟨g', h1, h2, D', h3, h4⟩ := C61_gradient_wrt_thrusts hE L hD
  rw [hg] at h1
  injection h1 with h1
  subst h1
  obtain rfl : D = D' := funext fun e => by
    have := (hmis e).symm.trans (h3 e)
    injection this
  intro hcon
  have hu := hcon.unique (h4 r)
  have hsum : ∑ i' ∈ Finset.range (l 0).nseg, ∑ k' : Fin 3,
      g.gradFinal.getD ((3 * (l 0).nseg + 1) * r + (3 * i' + k')) 0 *
        ((l 0).maxThrust * if 3 * i' + (k' : ℕ) = 3 * i + k then 1 else 0) =
      g.gradFinal.getD ((3 * (l 0).nseg + 1) * r + (3 * i + k)) 0 * (l 0).maxThrust := by
    rw [Finset.sum_eq_single i, Finset.sum_eq_single k]
    · simp
    · intro k' _ hk
      rw [if_neg (by intro h; apply hk; ext; omega)]
      simp
    · simp
    · intro i' _ hi'
      refine Finset.sum_eq_zero fun k' _ => ?_
      rw [if_neg (by have := k.2; have := k'.2; omega)]
      simp
    · intro h; exact absurd (Finset.mem_range.2 hi) h
  rw [hsum] at hu
  simp only [Pi.zero_apply, mul_zero, Finset.sum_const_zero, zero_add, add_zero] at hu
  apply hT
  have := mul_right_cancel₀ hne ((one_mul _).trans (hu.trans (mul_comm _ _)))
  exact this.symm

end

/-! ## A case: thrust in free space, constant mass -/

/-- Uniformly accelerated motion (unit mass, no gravity, unlimited exhaust velocity). -/
noncomputable def freeFlow : Flow := fun _ _ u t x =>
  ⟨⟨⟨x.rv.r.x + t * x.rv.v.x + t ^ 2 / 2 * u.x, x.rv.r.y + t * x.rv.v.y + t ^ 2 / 2 * u.y,
      x.rv.r.z + t * x.rv.v.z + t ^ 2 / 2 * u.z⟩,
    ⟨x.rv.v.x + t * u.x, x.rv.v.y + t * u.y, x.rv.v.z + t * u.z⟩⟩, x.m⟩

/-- Its sensitivities. -/
noncomputable def freeSens : FlowSens := fun _ _ _ t _ =>
  ⟨![![1, 0, 0, t, 0, 0, 0], ![0, 1, 0, 0, t, 0, 0], ![0, 0, 1, 0, 0, t, 0],
      ![0, 0, 0, 1, 0, 0, 0], ![0, 0, 0, 0, 1, 0, 0], ![0, 0, 0, 0, 0, 1, 0],
      ![0, 0, 0, 0, 0, 0, 1]],
   ![![t ^ 2 / 2, 0, 0], ![0, t ^ 2 / 2, 0], ![0, 0, t ^ 2 / 2],
      ![t, 0, 0], ![0, t, 0], ![0, 0, t],
      ![0, 0, 0]]⟩

/-- Exact integration of this motion. -/
noncomputable def freeEnv : Env ℝ where
  add a b := a + b
  sub a b := a - b
  mul a b := a * b
  div a b := a / b
  ofNat n := n
  g0 := 9.80665
  prop _ mu ve u t0 x t1 := some (freeFlow mu ve u (t1 - t0) x)
  vprop _ mu ve u t0 x t1 := some (freeFlow mu ve u (t1 - t0) x, freeSens mu ve u (t1 - t0) x)
  grid _ mu ve u t0 x ts := some (ts.map fun t => freeFlow mu ve u (t - t0) x)
  rhs _ _ u x := ⟨⟨x.rv.v, u⟩, 0⟩
  con u := u.x * u.x + u.y * u.y + u.z * u.z - 1

theorem freeEnv_exact : ExactFlow freeEnv freeFlow freeSens :=
  ⟨fun _ _ => rfl, fun _ _ => rfl, fun _ _ => rfl, fun _ => rfl, fun _ _ _ _ _ _ _ => rfl, fun _ _ _ _ _ _ _ => rfl⟩

theorem free_diff (mu veff : ℝ) (u : V3 ℝ) (t : ℝ) (x : St ℝ) : SegDiff freeEnv freeFlow freeSens mu veff u t x := by
  intro us ts xs u' t' x' h1 h2 h3 hu ht hx r
  subst h1 h2 h3
  have u0 := hu 0; have u1 := hu 1; have u2 := hu 2
  have x0 := hx 0; have x1 := hx 1; have x2 := hx 2; have x3 := hx 3; have x4 := hx 4; have x5 := hx 5; have x6 := hx 6
  simp only [vec3, St.vec] at u0 u1 u2 x0 x1 x2 x3 x4 x5 x6
  have pos : ∀ {p v w : ℝ → ℝ} {p' v' w' : ℝ}, HasDerivAt p p' 0 → HasDerivAt v v' 0 → HasDerivAt w w' 0 →
      HasDerivAt (fun e => p e + ts e * v e + ts e ^ 2 / 2 * w e)
        (p' + ts 0 * v' + ts 0 ^ 2 / 2 * w' + t' * (v 0 + ts 0 * w 0)) 0 := by
    intro p v w p' v' w' hp hv hw
    refine ((hp.add (ht.mul hv)).add (((ht.pow 2).div_const 2).mul hw)).congr_deriv ?_
    simp; ring
  have vel : ∀ {v w : ℝ → ℝ} {v' w' : ℝ}, HasDerivAt v v' 0 → HasDerivAt w w' 0 →
      HasDerivAt (fun e => v e + ts e * w e) (v' + ts 0 * w' + t' * w 0) 0 := by
    intro v w v' w' hv hw
    refine (hv.add (ht.mul hw)).congr_deriv ?_
    ring
  fin_cases r
  · refine (pos x0 x3 u0).congr_deriv ?_
    simp [freeSens, freeEnv, St.vec, mulVec, dotProduct, Fin.sum_univ_seven, Fin.sum_univ_three]
  · refine (pos x1 x4 u1).congr_deriv ?_
    simp [freeSens, freeEnv, St.vec, mulVec, dotProduct, Fin.sum_univ_seven, Fin.sum_univ_three]
  · refine (pos x2 x5 u2).congr_deriv ?_
    simp [freeSens, freeEnv, St.vec, mulVec, dotProduct, Fin.sum_univ_seven, Fin.sum_univ_three]
  · refine (vel x3 u0).congr_deriv ?_
    simp [freeSens, freeEnv, St.vec, mulVec, dotProduct, Fin.sum_univ_seven, Fin.sum_univ_three]
  · refine (vel x4 u1).congr_deriv ?_
    simp [freeSens, freeEnv, St.vec, mulVec, dotProduct, Fin.sum_univ_seven, Fin.sum_univ_three]
  · refine (vel x5 u2).congr_deriv ?_
    simp [freeSens, freeEnv, St.vec, mulVec, dotProduct, Fin.sum_univ_seven, Fin.sum_univ_three]
  · refine x6.congr_deriv ?_
    simp [freeSens, freeEnv, St.vec, mulVec, dotProduct, Fin.sum_univ_seven, Fin.sum_univ_three]

/-- One forward segment, maximum thrust `T`, first throttle component `1 + e`. -/
noncomputable def freeLeg (T : ℝ) (s f : St ℝ) (e : ℝ) : Leg ℝ :=
  { rvms := s, throttles := [1 + e, 0, 0], thrusts := [(1 + e) * T, 0 * T, 0 * T], rvmf := f, tof := 3,
    maxThrust := T, isp := 1, mu := 1, cut := 1, tol := 1, nseg := 1, nsegFwd := 1, nsegBck := 0,
    tas := ⟨1, 1, 1 * 9.80665, 0, 0, s⟩, tasVar := ⟨1, 1, 1 * 9.80665, 0, 0, s⟩ }

theorem freeLeg_curve (T : ℝ) (s f : St ℝ) :
    LegCurve freeEnv (freeLeg T s f) 0 0 (fun j => if j = 3 * 0 + (0 : Fin 3) then 1 else 0) 0 where
  sized e := ⟨rfl, Nat.one_pos, by show 3 * 1 < 2 ^ 32; decide, rfl, rfl⟩
  inStep e := ⟨rfl, rfl, rfl, rfl, rfl⟩
  nseg _ := rfl
  nsegFwd _ := rfl
  maxThrust _ := rfl
  mu _ := rfl
  isp _ := rfl
  rvms k := hasDerivAt_const (0 : ℝ) (s.vec k)
  rvmf k := hasDerivAt_const (0 : ℝ) (f.vec k)
  throttles j hj := by
    have hj : j < 3 := hj
    interval_cases j
    · simpa [freeLeg] using (hasDerivAt_id (0 : ℝ)).const_add 1
    · simpa [freeLeg] using hasDerivAt_const (0 : ℝ) (0 : ℝ)
    · simpa [freeLeg] using hasDerivAt_const (0 : ℝ) (0 : ℝ)
  tof := hasDerivAt_const (0 : ℝ) (3 : ℝ)

/-- **C61, witness.** Maximum thrust two, one segment of duration three: the returned derivative of the
fourth mismatch (velocity) with respect to the first throttle component is `3`; the mismatch grows by
`6` per unit of throttle. -/
theorem C61_witness (s f : St ℝ) :
    ∃ g, (computeMcGrad freeEnv (freeLeg 2 s f 0)).1 = .ok g ∧ g.gradFinal.getD ((3 * 1 + 1) * 3 + 0) 0 = 3 ∧
      ∀ D : ℝ → St ℝ, (∀ e, (computeMismatch freeEnv (freeLeg 2 s f e)).1 = .ok (D e)) →
        HasDerivAt (fun e => (D e).vec 3) 6 0 := by
  have hL := freeLeg_curve 2 s f
  obtain ⟨g, h1, h2, D', h3, h4⟩ := C61_gradient_wrt_thrusts freeEnv_exact hL (fun i _ => free_diff _ _ _ _ _)
  have hval : g.gradFinal.getD ((3 * 1 + 1) * 3 + 0) 0 = 3 := by
    have := (mcGrad_exact freeEnv_exact (hL.sized 0) (hL.inStep 0)).symm.trans h1
    have hg : g = _ := (Res.ok.inj this).symm
    rw [hg]
    have h0 := layout_throttle (n := 1)
      (fun r i k => throttleBlock 1 (segMs freeFlow freeSens (freeLeg 2 s f 0))
        (segU freeFlow freeSens (freeLeg 2 s f 0)) i r k)
      (tofColumn 1 1 (segMs freeFlow freeSens (freeLeg 2 s f 0)) (segF freeEnv freeFlow (freeLeg 2 s f 0)))
      (r := 3) (i := 0) Nat.one_pos 0
    refine h0.trans ?_
    unfold throttleBlock
    rw [if_pos Nat.one_pos, fwdSens_end, Matrix.one_mul]
    simp [segU, Leg.segSens, freeSens, Leg.segDt, freeLeg]
  refine ⟨g, h1, hval, fun D hD => ?_⟩
  obtain rfl : D = D' := funext fun e => by
    have := (hD e).symm.trans (h3 e)
    injection this
  refine (h4 3).congr_deriv ?_
  have e1 : (freeLeg 2 s f 0).nseg = 1 := rfl
  have e2 : (freeLeg 2 s f 0).maxThrust = 2 := rfl
  simp only [e1, e2, Finset.sum_range_one, Pi.zero_apply, mul_zero, Finset.sum_const_zero, zero_add, add_zero]
  rw [Finset.sum_eq_single 0]
  · have h : g.gradFinal.getD ((3 * 1 + 1) * ((3 : Fin 7) : ℕ) + ((0 : Fin 3) : ℕ)) 0 = 3 := hval
    rw [h]; norm_num
  · intro k _ hk
    rw [if_neg (by intro h; apply hk; ext; simpa using h)]
    simp
  · simp

end Kep3.HF
