import Verif.HF.History
import Verif.HF.GradAsm
import Mathlib.Analysis.Calculus.Deriv.Mul
import Mathlib.Analysis.Calculus.Deriv.Add

/-!
# `sims_flanagan_hf::compute_mc_grad` against the derivative of the mismatch (C61)

Real arithmetic; the integrators are exact: `propagate_until` is the flow `φ`, and the variational
integrator returns the sensitivities `σ`.
-/

namespace Kep3.HF

open Kep3
open Kep3.SF (usub triple)

/-- The seven components as a vector. -/
def St.vec (x : St ℝ) : Fin 7 → ℝ := ![x.rv.r.x, x.rv.r.y, x.rv.r.z, x.rv.v.x, x.rv.v.y, x.rv.v.z, x.m]

/-- `compute_mc_grad`, src/leg/sims_flanagan_hf.cpp:737-752. -/
noncomputable def computeMcGrad (E : Env ℝ) : Mut (Leg ℝ) RelGrad := do
  let g ← computeAllGradients E
  Mut.read fun l => relevantGradients l.nseg l.nsegFwd l.nsegBck (g.1.map fun s => Matrix.of s.dxdx)
    (g.1.map fun s => Matrix.of s.dxdu) (g.2.map St.vec)

/-- `compute_tc_grad`, src/leg/sims_flanagan_hf.cpp:754-763: entry `i * nseg * 3 + 3 i + k`. -/
def computeTcGrad (l : Leg ℝ) : Mut (List ℝ) Unit :=
  forLoop l.nseg fun i => do
    let u ← Mut.call (triple l.throttles (3 * i) (3 * i + 1) (3 * i + 2))
    putAt (i * l.nseg * 3 + 3 * i) (2 * u.x)
    putAt (i * l.nseg * 3 + 3 * i + 1) (2 * u.y)
    putAt (i * l.nseg * 3 + 3 * i + 2) (2 * u.z)

/-- Flows and their sensitivities, as functions of `mu`, exhaust velocity, thrust, duration, state. -/
abbrev Flow := ℝ → ℝ → V3 ℝ → ℝ → St ℝ → St ℝ
/-- Sensitivities of a flow. -/
abbrev FlowSens := ℝ → ℝ → V3 ℝ → ℝ → St ℝ → Sens ℝ

/-- Real arithmetic and exact integration. -/
structure ExactFlow (E : Env ℝ) (φ : Flow) (σ : FlowSens) : Prop where
  sub : ∀ a b, E.sub a b = a - b
  mul : ∀ a b, E.mul a b = a * b
  div : ∀ a b, E.div a b = a / b
  ofNat : ∀ n, E.ofNat n = n
  prop : ∀ tol mu veff u t0 x t1, E.prop tol mu veff u t0 x t1 = some (φ mu veff u (t1 - t0) x)
  vprop : ∀ tol mu veff u t0 x t1,
    E.vprop tol mu veff u t0 x t1 = some (φ mu veff u (t1 - t0) x, σ mu veff u (t1 - t0) x)

/-- Data consistent in size (kept by constructor and setters, C48/C49). -/
structure Leg.Sized (l : Leg ℝ) : Prop where
  sum : l.nsegFwd + l.nsegBck = l.nseg
  pos : 0 < l.nseg
  fit : 3 * l.nseg < 2 ^ 32
  thr : l.thrusts.length = 3 * l.nseg
  throttles : l.throttles.length = 3 * l.nseg

/-- The integrators hold the parameters of the leg and the thrusts belong to the throttles (as after
construction). -/
structure Leg.InStep (E : Env ℝ) (l : Leg ℝ) : Prop where
  mu : l.tas.mu = l.mu
  veff : l.tas.veff = l.isp * E.g0
  vmu : l.tasVar.mu = l.mu
  vveff : l.tasVar.veff = l.isp * E.g0
  thrusts : l.thrusts = l.throttles.map (· * l.maxThrust)

/-- The state at which the integration of segment `i` starts. -/
noncomputable def Leg.segState (φ : Flow) (l : Leg ℝ) (i : ℕ) : St ℝ :=
  if i < l.nsegFwd then l.fwdState φ i else l.bckState φ (l.nseg - 1 - i)

/-- The signed duration of the integration of segment `i`. -/
noncomputable def Leg.segDt (l : Leg ℝ) (i : ℕ) : ℝ :=
  if i < l.nsegFwd then l.tof / l.nseg else -(l.tof / l.nseg)

section exec
variable {E : Env ℝ} {φ : Flow} {σ : FlowSens}

theorem dt_exact (hE : ExactFlow E φ σ) (l : Leg ℝ) : l.dt E = l.tof / l.nseg := by
  unfold Leg.dt; rw [hE.div, hE.ofNat]

/-- The mismatch is the difference of the states flown from both ends. -/
theorem mismatch_exact (hE : ExactFlow E φ σ) {l : Leg ℝ} (hl : l.Sized) :
    (computeMismatch E l).1 = .ok (St.subWith E (l.fwdState φ l.nsegFwd) (l.bckState φ l.nsegBck)) := by
  obtain ⟨hsum, hpos, hfit, hthr, -⟩ := hl
  show (mismatchOn E l l.tas).1 = _
  unfold mismatchOn
  have hdt := dt_exact hE l
  obtain ⟨a1, e1, ⟨s1, t1, x1⟩⟩ := forLoop_inv (fwdSeg E l) l.nsegFwd
    { l.tas with time := E.ofNat 0, state := l.rvms }
    (fun i ta => ta.Same l.tas ∧ ta.time = i * (l.tof / l.nseg) ∧ ta.state = l.fwdState φ i)
    (by
      intro i hi ta ⟨hs, ht, hx⟩
      have hth := thrustAt_thrust (l := l) (i := i) (by omega)
      have hrun : fwdSeg E l i ta = until_ E (E.mul (E.ofNat (i + 1)) (l.dt E)) { ta with u := l.thrust i } := by
        unfold fwdSeg
        rw [Nat.mod_eq_of_lt (by omega), hth]
        rfl
      unfold until_ at hrun
      simp only [hE.prop, hE.mul, hE.ofNat, hdt] at hrun
      refine ⟨_, hrun, hs, ?_, ?_⟩
      · rfl
      · show φ ta.mu ta.veff (l.thrust i) _ ta.state = φ l.tas.mu l.tas.veff (l.thrust i) (l.tof / l.nseg) (l.fwdState φ i)
        rw [hs.2.1, hs.2.2, hx, ht]
        congr 1
        push_cast; ring)
    ⟨⟨rfl, rfl, rfl⟩, by simp [hE.ofNat], rfl⟩
  obtain ⟨a2, e2, ⟨s2, t2, x2⟩⟩ := forLoop_inv (bckSeg E l) l.nsegBck
    { a1 with time := l.tof, state := l.rvmf }
    (fun i ta => ta.Same l.tas ∧ ta.time = l.tof - i * (l.tof / l.nseg) ∧ ta.state = l.bckState φ i)
    (by
      intro i hi ta ⟨hs, ht, hx⟩
      have hu1 : usub l.nseg (i + 1) = l.nseg - 1 - i := by rw [SF.usub_le (by omega) (by omega)]; omega
      have hth := thrustAt_thrust (l := l) (i := l.nseg - 1 - i) (by omega)
      have hrun : bckSeg E l i ta = until_ E (E.sub l.tof (E.mul (E.ofNat (i + 1)) (l.dt E)))
          { ta with u := l.thrust (l.nseg - 1 - i) } := by
        unfold bckSeg
        rw [hu1, Nat.mod_eq_of_lt (by omega), hth]
        rfl
      unfold until_ at hrun
      simp only [hE.prop, hE.mul, hE.sub, hE.ofNat, hdt] at hrun
      refine ⟨_, hrun, hs, ?_, ?_⟩
      · rfl
      · show φ ta.mu ta.veff (l.thrust (l.nseg - 1 - i)) _ ta.state =
          φ l.tas.mu l.tas.veff (l.thrust (l.nseg - 1 - i)) (-(l.tof / l.nseg)) (l.bckState φ i)
        rw [hs.2.1, hs.2.2, hx, ht]
        congr 1
        push_cast; ring)
    ⟨s1, by simp, rfl⟩
  simp only [Mut.assign_bind_run]
  rw [Mut.bind_run, e1]
  simp only [Mut.read_bind_run, Mut.assign_bind_run]
  rw [Mut.bind_run, e2]
  simp only [Mut.read_bind_run, x1, x2]
  rfl

/-- Sensitivity of segment `i`. -/
noncomputable def Leg.segSens (φ : Flow) (σ : FlowSens) (l : Leg ℝ) (i : ℕ) : Sens ℝ :=
  σ l.tas.mu l.tas.veff (l.thrust i) (l.segDt i) (l.segState φ i)

theorem setAt_ok {α : Type} {a : List (Option α)} {i : ℕ} {x : α} (h : i < a.length) :
    setAt a i x = .ok (a.set i (some x)) := by
  unfold setAt; rw [if_pos h]

theorem getAt_ok {α : Type} {f : ℕ → α} {n i : ℕ} (h : i < n) :
    getAt ((List.range n).map fun k => some (f k)) i = .ok (f i) := by
  unfold getAt
  rw [List.getElem?_map, List.getElem?_range h]
  rfl

/-- Filling a vector element by element. -/
theorem set_fill {α : Type} {n j : ℕ} {f : ℕ → α} {P Q : ℕ → Prop} [DecidablePred P] [DecidablePred Q]
    (hQ : ∀ k < n, Q k ↔ P k ∨ k = j) :
    ((List.range n).map fun k => if P k then some (f k) else none).set j (some (f j)) =
      (List.range n).map fun k => if Q k then some (f k) else none := by
  apply List.ext_getElem
  · simp
  · intro k k1 k2
    simp only [List.length_map, List.length_range, List.length_set] at k1 k2
    rw [List.getElem_set]
    simp only [List.getElem_map, List.getElem_range]
    by_cases hk : j = k
    · subst hk
      rw [if_pos rfl, if_pos ((hQ _ k1).2 (Or.inr rfl))]
    · rw [if_neg hk]
      by_cases hP : P k
      · rw [if_pos hP, if_pos ((hQ _ k1).2 (Or.inl hP))]
      · rw [if_neg hP, if_neg]
        intro h
        rcases (hQ _ k1).1 h with h | h
        · exact hP h
        · exact hk h.symm

theorem fill_none {α : Type} {n : ℕ} {f : ℕ → α} {P : ℕ → Prop} [DecidablePred P] (h : ∀ k < n, ¬P k) :
    List.replicate n none = (List.range n).map fun k => if P k then some (f k) else none := by
  apply List.ext_getElem
  · simp
  · intro k k1 k2
    simp only [List.length_map, List.length_range] at k2
    simp [h k k2]

theorem fill_all {α : Type} {n : ℕ} {f : ℕ → α} {P : ℕ → Prop} [DecidablePred P] (h : ∀ k < n, P k) :
    ((List.range n).map fun k => if P k then some (f k) else none) = (List.range n).map fun k => some (f k) := by
  refine List.map_congr_left fun k hk => ?_
  rw [if_pos (h k (by simpa using hk))]

/-- Where the integration of segment `i` ends. -/
noncomputable def Leg.segEnd (φ : Flow) (l : Leg ℝ) (i : ℕ) : St ℝ :=
  φ l.tas.mu l.tas.veff (l.thrust i) (l.segDt i) (l.segState φ i)

theorem gradLoops_exact (hE : ExactFlow E φ σ) {l : Leg ℝ} (hl : l.Sized)
    (hmu : l.tasVar.mu = l.tas.mu) (hve : l.tasVar.veff = l.tas.veff) :
    ∃ ta, gradLoops E l ⟨l.tasVar, List.replicate l.nseg none, List.replicate l.nseg none⟩ =
      (.ok (), ⟨ta, (List.range l.nseg).map fun i => some (l.segEnd φ i),
        (List.range l.nseg).map fun i => some (l.segSens φ σ i)⟩) := by
  obtain ⟨hsum, hpos, hfit, hthr, -⟩ := hl
  have hdt := dt_exact hE l
  unfold gradLoops
  obtain ⟨a1, e1, ⟨s1, t1, x1, f1, g1⟩⟩ := forLoop_inv (vfwdSeg E l) l.nsegFwd
    ⟨{ l.tasVar with time := E.ofNat 0, state := l.rvms }, List.replicate l.nseg none, List.replicate l.nseg none⟩
    (fun i g => g.ta.Same l.tasVar ∧ g.ta.time = i * (l.tof / l.nseg) ∧ g.ta.state = l.fwdState φ i ∧
      (g.xf = (List.range l.nseg).map fun k => if k < i then some (l.segEnd φ k) else none) ∧
      g.sens = (List.range l.nseg).map fun k => if k < i then some (l.segSens φ σ k) else none)
    (by
      intro i hi g ⟨hs, ht, hx, hf, hg⟩
      have hth := thrustAt_thrust (l := l) (i := i) (by omega)
      have hrun : vfwdSeg E l i g = vuntil E (E.mul (E.ofNat (i + 1)) (l.dt E)) i
          { g with ta := { g.ta with u := l.thrust i } } := by
        unfold vfwdSeg
        rw [Nat.mod_eq_of_lt (by omega), hth]
        rfl
      unfold vuntil at hrun
      simp only [hE.vprop, hE.mul, hE.ofNat, hdt] at hrun
      rw [setAt_ok (by rw [hf]; simp; omega), setAt_ok (by rw [hg]; simp; omega)] at hrun
      have hd : ((i + 1 : ℕ) : ℝ) * (l.tof / l.nseg) - g.ta.time = l.segDt i := by
        unfold Leg.segDt; rw [ht, if_pos hi]; push_cast; ring
      have hst : g.ta.state = l.segState φ i := by unfold Leg.segState; rw [if_pos hi, hx]
      simp only [hd, hs.2.1, hs.2.2, hmu, hve, hst] at hrun
      refine ⟨_, hrun, ⟨hs.1, hmu.symm, hve.symm⟩, rfl, ?_, ?_, ?_⟩
      · show φ l.tas.mu l.tas.veff (l.thrust i) (l.segDt i) (l.segState φ i) =
          φ l.tas.mu l.tas.veff (l.thrust i) (l.tof / l.nseg) (l.fwdState φ i)
        unfold Leg.segDt Leg.segState; rw [if_pos hi, if_pos hi]
      · show g.xf.set i (some (l.segEnd φ i)) = _
        rw [hf]
        exact set_fill fun k _ => by omega
      · show g.sens.set i (some (l.segSens φ σ i)) = _
        rw [hg]
        exact set_fill fun k _ => by omega)
    ⟨⟨rfl, rfl, rfl⟩, by simp [hE.ofNat], rfl, fill_none fun k _ => by omega, fill_none fun k _ => by omega⟩
  obtain ⟨a2, e2, ⟨s2, t2, x2, f2, g2⟩⟩ := forLoop_inv (vbckSeg E l) l.nsegBck
    { a1 with ta := { a1.ta with time := l.tof, state := l.rvmf } }
    (fun i g => g.ta.Same l.tasVar ∧ g.ta.time = l.tof - i * (l.tof / l.nseg) ∧ g.ta.state = l.bckState φ i ∧
      (g.xf = (List.range l.nseg).map fun k => if k < l.nsegFwd ∨ l.nseg - i ≤ k then some (l.segEnd φ k) else none) ∧
      g.sens = (List.range l.nseg).map fun k => if k < l.nsegFwd ∨ l.nseg - i ≤ k then some (l.segSens φ σ k) else none)
    (by
      intro i hi g ⟨hs, ht, hx, hf, hg⟩
      have hu1 : usub l.nseg (i + 1) = l.nseg - 1 - i := by rw [SF.usub_le (by omega) (by omega)]; omega
      have hth := thrustAt_thrust (l := l) (i := l.nseg - 1 - i) (by omega)
      have hrun : vbckSeg E l i g = vuntil E (E.sub l.tof (E.mul (E.ofNat (i + 1)) (l.dt E))) (l.nseg - 1 - i)
          { g with ta := { g.ta with u := l.thrust (l.nseg - 1 - i) } } := by
        unfold vbckSeg
        rw [hu1, Nat.mod_eq_of_lt (by omega), hth]
        rfl
      unfold vuntil at hrun
      simp only [hE.vprop, hE.mul, hE.sub, hE.ofNat, hdt] at hrun
      rw [setAt_ok (by rw [hf]; simp; omega), setAt_ok (by rw [hg]; simp; omega)] at hrun
      have hd : l.tof - ((i + 1 : ℕ) : ℝ) * (l.tof / l.nseg) - g.ta.time = l.segDt (l.nseg - 1 - i) := by
        unfold Leg.segDt; rw [ht, if_neg (by omega)]; push_cast; ring
      have hst : g.ta.state = l.segState φ (l.nseg - 1 - i) := by
        unfold Leg.segState; rw [if_neg (by omega), hx, show l.nseg - 1 - (l.nseg - 1 - i) = i by omega]
      simp only [hd, hs.2.1, hs.2.2, hmu, hve, hst] at hrun
      refine ⟨_, hrun, ⟨hs.1, hmu.symm, hve.symm⟩, rfl, ?_, ?_, ?_⟩
      · show φ l.tas.mu l.tas.veff (l.thrust (l.nseg - 1 - i)) (l.segDt (l.nseg - 1 - i))
            (l.segState φ (l.nseg - 1 - i)) =
          φ l.tas.mu l.tas.veff (l.thrust (l.nseg - 1 - i)) (-(l.tof / l.nseg)) (l.bckState φ i)
        rw [← hst, hx]
        unfold Leg.segDt; rw [if_neg (by omega)]
      · show g.xf.set (l.nseg - 1 - i) (some (l.segEnd φ (l.nseg - 1 - i))) = _
        rw [hf]
        exact set_fill fun k _ => by omega
      · show g.sens.set (l.nseg - 1 - i) (some (l.segSens φ σ (l.nseg - 1 - i))) = _
        rw [hg]
        exact set_fill fun k _ => by omega)
    ⟨s1, by simp, rfl, by
      show a1.xf = _
      rw [f1]
      refine List.map_congr_left fun k hk => ?_
      rw [List.mem_range] at hk
      by_cases hk2 : k < l.nsegFwd
      · rw [if_pos hk2, if_pos (Or.inl hk2)]
      · rw [if_neg hk2, if_neg (by omega)], by
      show a1.sens = _
      rw [g1]
      refine List.map_congr_left fun k hk => ?_
      rw [List.mem_range] at hk
      by_cases hk2 : k < l.nsegFwd
      · rw [if_pos hk2, if_pos (Or.inl hk2)]
      · rw [if_neg hk2, if_neg (by omega)]⟩
  refine ⟨a2.ta, ?_⟩
  simp only [Mut.assign_bind_run]
  rw [Mut.bind_run, e1]
  simp only [Mut.assign_bind_run]
  rw [e2, ← fill_all (P := fun k => k < l.nsegFwd ∨ l.nseg - l.nsegBck ≤ k) (fun k _ => by omega),
    ← fill_all (P := fun k => k < l.nsegFwd ∨ l.nseg - l.nsegBck ≤ k) (fun k _ => by omega), ← f2, ← g2]

theorem startStates_exact {l : Leg ℝ} (hl : l.Sized) (xf : List (Option (St ℝ)))
    (hxf : xf = (List.range l.nseg).map fun i => some (l.segEnd φ i)) :
    startStates l xf (List.replicate l.nseg none) = (.ok (), (List.range l.nseg).map fun i => some (l.segState φ i)) := by
  obtain ⟨hsum, hpos, hfit, -, -⟩ := hl
  have hnext : ∀ k, k + 1 < l.nsegFwd → l.segEnd φ k = l.segState φ (k + 1) := by
    intro k hk
    unfold Leg.segEnd Leg.segState Leg.segDt
    rw [if_pos (by omega), if_pos (by omega), if_pos hk]
    rfl
  have hprev : ∀ k, k + 1 < l.nsegBck → l.segEnd φ (l.nseg - 1 - k) = l.segState φ (l.nseg - 1 - (k + 1)) := by
    intro k hk
    unfold Leg.segEnd Leg.segState Leg.segDt
    rw [if_neg (by omega), if_neg (by omega), if_neg (by omega), show l.nseg - 1 - (l.nseg - 1 - k) = k by omega,
      show l.nseg - 1 - (l.nseg - 1 - (k + 1)) = k + 1 by omega]
    rfl
  have hput : ∀ {a : List (Option (St ℝ))} {i : ℕ} {x : St ℝ}, i < a.length →
      putSt i x a = (.ok (), a.set i (some x)) := by
    intro a i x h
    unfold putSt; rw [setAt_ok h]
  have hcopy : ∀ {a : List (Option (St ℝ))} {i j : ℕ}, i < a.length → j < l.nseg →
      copySt xf j i a = (.ok (), a.set i (some (l.segEnd φ j))) := by
    intro a i j h hj
    unfold copySt; rw [hxf, getAt_ok hj, Mut.call_ok_bind, hput h]
  -- the forward half
  have h1 : ∃ a1, ifPos l.nsegFwd (putSt 0 l.rvms) (List.replicate l.nseg none) = (.ok (), a1) ∧
      forLoop (l.nsegFwd - 1) (fun k => copySt xf k (k + 1)) a1 =
        (.ok (), (List.range l.nseg).map fun k => if k < l.nsegFwd then some (l.segState φ k) else none) := by
    unfold ifPos
    rcases Nat.eq_zero_or_pos l.nsegFwd with h0 | h0
    · refine ⟨List.replicate l.nseg none, ?_, ?_⟩
      · rw [h0]; rfl
      · rw [h0, ← fill_none (fun k _ => by omega)]; rfl
    · refine ⟨(List.replicate l.nseg none).set 0 (some l.rvms), ?_, ?_⟩
      · rw [if_pos h0, hput (by simp; omega)]
      · obtain ⟨a, e, hI⟩ := forLoop_inv (fun k => copySt xf k (k + 1)) (l.nsegFwd - 1)
          ((List.replicate l.nseg none).set 0 (some l.rvms))
          (fun i a => a = (List.range l.nseg).map fun k => if k < i + 1 then some (l.segState φ k) else none)
          (by
            intro i hi a ha
            refine ⟨_, hcopy (by rw [ha]; simp; omega) (by omega), ?_⟩
            rw [hnext i (by omega), ha]
            exact set_fill fun k _ => by omega)
          (by
            rw [show l.rvms = l.segState φ 0 by unfold Leg.segState; rw [if_pos h0]; rfl,
              fill_none (f := l.segState φ) (P := fun k => k < 0) (fun k _ => by omega)]
            exact set_fill fun k _ => by omega)
        rw [e, hI, show l.nsegFwd - 1 + 1 = l.nsegFwd by omega]
  obtain ⟨a1, e1, e2⟩ := h1
  have hu : usub l.nseg 1 = l.nseg - 1 := SF.usub_le (by omega) (by omega)
  have h2 : ∃ a2, ifPos l.nsegBck (putSt (usub l.nseg 1) l.rvmf)
        ((List.range l.nseg).map fun k => if k < l.nsegFwd then some (l.segState φ k) else none) = (.ok (), a2) ∧
      forLoop (l.nsegBck - 1) (fun k => copySt xf (usub (usub l.nseg 1) k) (usub (usub l.nseg 1) (k + 1))) a2 =
        (.ok (), (List.range l.nseg).map fun k => some (l.segState φ k)) := by
    unfold ifPos
    rcases Nat.eq_zero_or_pos l.nsegBck with h0 | h0
    · refine ⟨_, by rw [h0]; rfl, ?_⟩
      rw [h0, fill_all (fun k _ => by omega)]; rfl
    · refine ⟨_, by rw [if_pos h0, hput (by simp; omega)], ?_⟩
      obtain ⟨a, e, hI⟩ := forLoop_inv
        (fun k => copySt xf (usub (usub l.nseg 1) k) (usub (usub l.nseg 1) (k + 1))) (l.nsegBck - 1)
        (((List.range l.nseg).map fun k => if k < l.nsegFwd then some (l.segState φ k) else none).set (usub l.nseg 1)
          (some l.rvmf))
        (fun i a => a = (List.range l.nseg).map fun k =>
          if k < l.nsegFwd ∨ l.nseg - 1 - i ≤ k then some (l.segState φ k) else none)
        (by
          intro i hi a ha
          rw [hu, SF.usub_le (by omega) (by omega), SF.usub_le (by omega) (by omega)]
          refine ⟨_, hcopy (by rw [ha]; simp; omega) (by omega), ?_⟩
          rw [hprev i (by omega), ha]
          exact set_fill fun k _ => by omega)
        (by
          rw [hu, show l.rvmf = l.segState φ (l.nseg - 1) by
            unfold Leg.segState; rw [if_neg (by omega), show l.nseg - 1 - (l.nseg - 1) = 0 by omega]; rfl]
          exact set_fill fun k _ => by omega)
      rw [e, hI, fill_all (fun k _ => by omega)]
  obtain ⟨a2, e3, e4⟩ := h2
  unfold startStates
  rw [Mut.bind_run, e1]
  dsimp only
  rw [Mut.bind_run, e2]
  dsimp only
  rw [Mut.bind_run, e3]
  exact e4

/-- `compute_all_gradients` on exact integrators: the sensitivities and the state derivatives of the
segments, in order. -/
theorem allGradients_exact (hE : ExactFlow E φ σ) {l : Leg ℝ} (hl : l.Sized) (hs : l.InStep E) :
    (computeAllGradients E l).1 = .ok ((List.range l.nseg).map (l.segSens φ σ),
      (List.range l.nseg).map fun i => E.rhs l.tas.mu l.tas.veff (l.thrust i) (l.segState φ i)) := by
  show (allGradientsOn E l l.tasVar).1 = _
  obtain ⟨ta, e⟩ := gradLoops_exact hE hl (by rw [hs.mu, hs.vmu]) (by rw [hs.veff, hs.vveff])
  rw [allGradientsOn_eq, e]
  show gradTail E l _ = _
  unfold gradTail
  rw [startStates_exact (φ := φ) hl _ rfl]
  dsimp only
  rw [Res.ok_bind]
  obtain ⟨hsum, hpos, hfit, hthr, hth⟩ := hl
  rw [mapM_ok _ (fun i => E.rhs l.tas.mu l.tas.veff (l.thrust i) (l.segState φ i))]
  · rw [Res.ok_bind, mapM_ok _ (l.segSens φ σ)]
    · rfl
    · intro i hi
      rw [List.mem_range] at hi
      exact getAt_ok hi
  · intro i hi
    rw [List.mem_range] at hi
    rw [getAt_ok hi]
    unfold triple
    rw [List.getElem?_eq_getElem (by omega), List.getElem?_eq_getElem (by omega), List.getElem?_eq_getElem (by omega)]
    simp only [Res.ok_bind]
    unfold stateDerivative Leg.thrust
    simp only [hs.mu, hs.veff, hE.mul, hs.thrusts, List.getD_eq_getElem?_getD, List.getElem?_map, Nat.mul_comm 3 i]
    rw [List.getElem?_eq_getElem (show i * 3 < _ by omega), List.getElem?_eq_getElem (show i * 3 + 1 < _ by omega),
      List.getElem?_eq_getElem (show i * 3 + 2 < _ by omega)]
    rfl

end exec

end Kep3.HF
