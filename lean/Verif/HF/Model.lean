import Verif.SF.Model
import Verif.SF.Flight
import Verif.Loop

/-!
# `kep3::leg::sims_flanagan_hf`: members, setters, constraints, per-segment gradients

The scalar type `F` is a parameter. What the leg uses from outside (double arithmetic, the Taylor
integrators of heyoka) is collected in `Env` and arbitrary: the statements about histories of calls
hold for every arithmetic and every integrator. For checks the scalars are `Dbl`.
-/

namespace Kep3.HF

open Kep3
open Kep3.SF (throwIf checkTof checkThrottles checkMaxThrust checkIsp checkMu checkCut checkTol checkNseg
  nsegOf nsegFwdOf usub triple)

/-- `std::array<double, 7>`: position, velocity, mass. -/
@[ext] structure St (F : Type) where
  rv : RV F
  m : F
  deriving DecidableEq

/-- The sensitivities a variational integration returns: with respect to the state and to the thrust,
src/leg/sims_flanagan_hf.cpp:564-570 (the 70 variational variables; rows `7 + 10 j`). -/
structure Sens (F : Type) where
  dxdx : Fin 7 → Fin 7 → F
  dxdu : Fin 7 → Fin 3 → F

/-- What the leg takes from outside. `prop tol mu veff u t0 x0 t1` is `propagate_until(t1)` of the
`stark` integrator (src/ta/stark.cpp:42-70) with tolerance `tol`, parameters `mu, veff, u`, time `t0`
and state `x0`; `none` means a status other than `time_limit`. `vprop` is the variational integrator
started with the variational variables `m_vars`. `grid` is `propagate_grid`: the states at the grid
times. `rhs mu veff u x` is the right-hand side as coded in `get_state_derivative`. -/
structure Env (F : Type) where
  add : F → F → F
  sub : F → F → F
  mul : F → F → F
  div : F → F → F
  /-- conversion of an `unsigned` to a double -/
  ofNat : ℕ → F
  /-- `kep3::G0` -/
  g0 : F
  prop : F → F → F → V3 F → F → St F → F → Option (St F)
  vprop : F → F → F → V3 F → F → St F → F → Option (St F × Sens F)
  grid : F → F → F → V3 F → F → St F → List F → Option (List (St F))
  rhs : F → F → V3 F → St F → St F
  /-- `u·u - 1` -/
  con : V3 F → F

/-- The part of a `heyoka::taylor_adaptive<double>` copy that the leg uses: tolerance (fixed at
construction), parameters `par[0]`, `par[1]`, `par[2..4]`, time and state. -/
@[ext] structure Integ (F : Type) where
  tol : F
  mu : F
  veff : F
  u : V3 F
  time : F
  state : St F
  deriving DecidableEq

/-- Data members, include/kep3/leg/sims_flanagan_hf.hpp:157-188, without `m_vars` (a constant: the
initial conditions of the variational equations). -/
@[ext] structure Leg (F : Type) where
  rvms : St F
  throttles : List F
  thrusts : List F
  rvmf : St F
  tof : F
  maxThrust : F
  isp : F
  mu : F
  cut : F
  tol : F
  nseg : ℕ
  nsegFwd : ℕ
  nsegBck : ℕ
  tas : Integ F
  tasVar : Integ F
  deriving DecidableEq

section generic
variable {F : Type} (E : Env F)

/-- Conversion of the throttles to thrusts, e.g. src/leg/sims_flanagan_hf.cpp:67-70. -/
def thrustsOf (mt : F) (t : List F) : List F := t.map fun x => E.mul x mt

/-- State of an integrator just taken from the cache, src/ta/stark.cpp:85-88 and 110-113 (third
parameter of the thrust: 1e-32 in the variational one, here 0). -/
def Integ.cached (tol : F) : Integ F :=
  let one := E.ofNat 1
  let zero := E.ofNat 0
  ⟨tol, one, one, ⟨zero, zero, zero⟩, zero, ⟨⟨⟨one, one, one⟩, ⟨one, one, one⟩⟩, one⟩⟩

/-- `m_tas = get_ta_stark(m_tol)` followed by setting `par[0] = m_mu`, `par[1] = m_isp * G0`,
src/leg/sims_flanagan_hf.cpp:51-63 (also 85-97, 125-137). -/
def Integ.make (tol mu isp : F) : Integ F :=
  { Integ.cached E tol with mu := mu, veff := E.mul isp E.g0 }

/-- `propagate_until` and the check of its status, src/leg/sims_flanagan_hf.cpp:418-422, 440-444. -/
def until_ (t1 : F) : Mut (Integ F) Unit := fun ta =>
  match E.prop ta.tol ta.mu ta.veff ta.u ta.time ta.state t1 with
  | some x => (.ok (), { ta with time := t1, state := x })
  | none => (.err .domainError, ta)

/-- Three consecutive thrust components starting at (unsigned) index `k`; reading past the end is
undefined behaviour. -/
def thrustAt (t : List F) (k : ℕ) : Res (V3 F) := triple t k (k + 1) (k + 2)

/-- Segment duration, src/leg/sims_flanagan_hf.cpp:404. -/
def Leg.dt (l : Leg F) : F := E.div l.tof (E.ofNat l.nseg)

/-- One forward segment, src/leg/sims_flanagan_hf.cpp:414-422. -/
def fwdSeg (l : Leg F) (i : ℕ) : Mut (Integ F) Unit := do
  let u ← Mut.call (thrustAt l.thrusts (i * 3 % 2 ^ 32))
  Mut.assign fun ta => { ta with u := u }
  until_ E (E.mul (E.ofNat (i + 1)) (l.dt E))

/-- One backward segment, src/leg/sims_flanagan_hf.cpp:436-444. -/
def bckSeg (l : Leg F) (i : ℕ) : Mut (Integ F) Unit := do
  let u ← Mut.call (thrustAt l.thrusts (usub l.nseg (i + 1) * 3 % 2 ^ 32))
  Mut.assign fun ta => { ta with u := u }
  until_ E (E.sub l.tof (E.mul (E.ofNat (i + 1)) (l.dt E)))

/-- Componentwise difference, src/leg/sims_flanagan_hf.cpp:447-450. -/
def St.subWith (a b : St F) : St F :=
  ⟨⟨⟨E.sub a.rv.r.x b.rv.r.x, E.sub a.rv.r.y b.rv.r.y, E.sub a.rv.r.z b.rv.r.z⟩,
    ⟨E.sub a.rv.v.x b.rv.v.x, E.sub a.rv.v.y b.rv.v.y, E.sub a.rv.v.z b.rv.v.z⟩⟩, E.sub a.m b.m⟩

/-- `compute_mismatch_constraints` acting on the integrator `m_tas`,
src/leg/sims_flanagan_hf.cpp:401-451. -/
def mismatchOn (l : Leg F) : Mut (Integ F) (St F) := do
  Mut.assign fun ta => { ta with time := E.ofNat 0, state := l.rvms }
  forLoop l.nsegFwd (fwdSeg E l)
  let fwd ← Mut.read fun ta => .ok ta.state
  Mut.assign fun ta => { ta with time := l.tof, state := l.rvmf }
  forLoop l.nsegBck (bckSeg E l)
  let bck ← Mut.read fun ta => .ok ta.state
  return St.subWith E fwd bck

/-- `compute_mismatch_constraints`: a `const` member that changes the `mutable` integrator. -/
def computeMismatch : Mut (Leg F) (St F) := fun l =>
  let (r, ta) := mismatchOn E l l.tas
  (r, { l with tas := ta })

/-- `compute_throttle_constraints`, src/leg/sims_flanagan_hf.cpp:453-461. -/
def throttleCon (l : Leg F) : Res (List F) :=
  (List.range l.nseg).mapM fun i => do
    let u ← triple l.throttles (3 * i) (3 * i + 1) (3 * i + 2)
    Res.ok (E.con u)

/-- The seven components in order. -/
def St.toList (s : St F) : List F :=
  [s.rv.r.x, s.rv.r.y, s.rv.r.z, s.rv.v.x, s.rv.v.y, s.rv.v.z, s.m]

/-- `compute_constraints`, src/leg/sims_flanagan_hf.cpp:463-480 (mismatch first, then throttles). -/
def computeConstraints : Mut (Leg F) (List F) := do
  let a ← computeMismatch E
  let b ← Mut.read (throttleCon E)
  return a.toList ++ b

/-- Working data of `compute_all_gradients`, src/leg/sims_flanagan_hf.cpp:534-540. -/
structure GradSt (F : Type) where
  ta : Integ F
  xf : List (Option (St F))
  sens : List (Option (Sens F))

/-- Assignment to an element of a preallocated vector; an index past the end is undefined behaviour.
`none` marks elements still holding the initial zeros. -/
def setAt {α : Type} (a : List (Option α)) (i : ℕ) (x : α) : Res (List (Option α)) :=
  if i < a.length then .ok (a.set i (some x)) else .ub

/-- Variational `propagate_until`, src/leg/sims_flanagan_hf.cpp:558-562, 587-591, followed by saving the
state and the sensitivities at index `j`, 563-571 and 592-600. -/
def vuntil (t1 : F) (j : ℕ) : Mut (GradSt F) Unit := fun g =>
  match E.vprop g.ta.tol g.ta.mu g.ta.veff g.ta.u g.ta.time g.ta.state t1 with
  | some (x, s) =>
    let g' : GradSt F := { g with ta := { g.ta with time := t1, state := x } }
    match setAt g.xf j x, setAt g.sens j s with
    | .ok a, .ok b => (.ok (), { g' with xf := a, sens := b })
    | _, _ => (.ub, g')
  | none => (.err .domainError, g)

/-- Forward segment of `compute_all_gradients`, src/leg/sims_flanagan_hf.cpp:550-572. -/
def vfwdSeg (l : Leg F) (i : ℕ) : Mut (GradSt F) Unit := do
  let u ← Mut.call (thrustAt l.thrusts (i * 3 % 2 ^ 32))
  Mut.assign fun g => { g with ta := { g.ta with u := u } }
  vuntil E (E.mul (E.ofNat (i + 1)) (l.dt E)) i

/-- Backward segment of `compute_all_gradients`, src/leg/sims_flanagan_hf.cpp:579-601. -/
def vbckSeg (l : Leg F) (i : ℕ) : Mut (GradSt F) Unit := do
  let u ← Mut.call (thrustAt l.thrusts (usub l.nseg (i + 1) * 3 % 2 ^ 32))
  Mut.assign fun g => { g with ta := { g.ta with u := u } }
  vuntil E (E.sub l.tof (E.mul (E.ofNat (i + 1)) (l.dt E))) (usub l.nseg (i + 1))

/-- Reading an element of one of the vectors; past the end: undefined behaviour. The zeros of an
element that was never assigned are not modelled: reading one is `ub` here too (shown not to happen). -/
def getAt {α : Type} (a : List (Option α)) (i : ℕ) : Res α :=
  match a[i]? with
  | some (some x) => .ok x
  | _ => .ub

/-- `x0_per_seg[i] = x`. -/
def putSt (i : ℕ) (x : St F) : Mut (List (Option (St F))) Unit := fun a =>
  match setAt a i x with
  | .ok b => (.ok (), b)
  | .err e => (.err e, a)
  | .ub => (.ub, a)

/-- `x0_per_seg[i] = xf_per_seg[j]`, src/leg/sims_flanagan_hf.cpp:609, 615. -/
def copySt (xf : List (Option (St F))) (j i : ℕ) : Mut (List (Option (St F))) Unit := do
  let x ← Mut.call (getAt xf j)
  putSt i x

/-- The states at which the segments start, src/leg/sims_flanagan_hf.cpp:603-616. -/
def startStates (l : Leg F) (xf : List (Option (St F))) : Mut (List (Option (St F))) Unit := do
  ifPos l.nsegFwd (putSt 0 l.rvms)
  forLoop (l.nsegFwd - 1) fun k => copySt xf k (k + 1)
  ifPos l.nsegBck (putSt (usub l.nseg 1) l.rvmf)
  forLoop (l.nsegBck - 1) fun k => copySt xf (usub (usub l.nseg 1) k) (usub (usub l.nseg 1) (k + 1))

/-- `get_state_derivative`, src/leg/sims_flanagan_hf.cpp:498-528 (formula in `Env.rhs`): it uses the
members `m_max_thrust`, `m_isp`, `m_mu`. -/
def stateDerivative (l : Leg F) (x : St F) (u : V3 F) : St F :=
  E.rhs l.mu (E.mul l.isp E.g0) ⟨E.mul u.x l.maxThrust, E.mul u.y l.maxThrust, E.mul u.z l.maxThrust⟩ x

/-- `compute_all_gradients` acting on `m_tas_var`, src/leg/sims_flanagan_hf.cpp:530-624: per segment
the sensitivities and the state derivative at its start. -/
def allGradientsOn (l : Leg F) : Mut (Integ F) (List (Sens F) × List (St F)) := fun ta =>
  let none1 : List (Option (St F)) := List.replicate l.nseg none
  let loops : Mut (GradSt F) Unit := do
    Mut.assign fun g => { g with ta := { g.ta with time := E.ofNat 0, state := l.rvms } }
    forLoop l.nsegFwd (vfwdSeg E l)
    Mut.assign fun g => { g with ta := { g.ta with time := l.tof, state := l.rvmf } }
    forLoop l.nsegBck (vbckSeg E l)
  match loops ⟨ta, none1, List.replicate l.nseg none⟩ with
  | (.ok _, g) =>
    let r : Res (List (Sens F) × List (St F)) := do
      let x0 ← match startStates l g.xf none1 with
        | (.ok _, a) => Res.ok a
        | (.err e, _) => .err e
        | (.ub, _) => .ub
      let f ← (List.range l.nseg).mapM fun i => do
        let u ← triple l.throttles (i * 3) (i * 3 + 1) (i * 3 + 2)
        let x ← getAt x0 i
        Res.ok (stateDerivative E l x u)
      let s ← (List.range l.nseg).mapM fun i => getAt g.sens i
      return (s, f)
    (r, g.ta)
  | (.err e, g) => (.err e, g.ta)
  | (.ub, g) => (.ub, g.ta)

/-- `compute_all_gradients`: a `const` member that changes the `mutable` `m_tas_var`. -/
def computeAllGradients : Mut (Leg F) (List (Sens F) × List (St F)) := fun l =>
  let (r, ta) := allGradientsOn E l l.tasVar
  (r, { l with tasVar := ta })

end generic

section checked
variable (fl : ℚ → ℚ) (E : Env Dbl)

/-- `_sanity_checks` with tolerance, src/leg/sf_checks.cpp:84-95. -/
def sanityChecks (throttles : List Dbl) (tof maxThrust isp mu cut tol : Dbl) (n f b : ℕ) : Res Unit := do
  checkThrottles throttles
  checkTof tof
  checkMaxThrust maxThrust
  checkIsp isp
  checkMu mu
  checkCut cut
  checkTol tol
  checkNseg n f b

/-- Constructor from seven-component states, src/leg/sims_flanagan_hf.cpp:115-145. -/
def Leg.make (rvms : St Dbl) (throttles : List Dbl) (rvmf : St Dbl)
    (tof maxThrust isp mu cut tol : Dbl) : Res (Leg Dbl) := do
  let n := nsegOf throttles.length
  let f ← nsegFwdOf fl n cut
  sanityChecks throttles tof maxThrust isp mu cut tol n f (usub n f)
  return { rvms := rvms, throttles := throttles, thrusts := thrustsOf E maxThrust throttles, rvmf := rvmf,
           tof := tof, maxThrust := maxThrust, isp := isp, mu := mu, cut := cut, tol := tol,
           nseg := n, nsegFwd := f, nsegBck := usub n f,
           tas := Integ.make E tol mu isp, tasVar := Integ.make E tol mu isp }

/-- Constructor from separate states and masses, src/leg/sims_flanagan_hf.cpp:73-113: same body, the
states are copied and the masses set through `set_ms`, `set_mf` at the end. -/
def Leg.makeRv (rvs : RV Dbl) (ms : Dbl) (throttles : List Dbl) (rvf : RV Dbl) (mf : Dbl)
    (tof maxThrust isp mu cut tol : Dbl) : Res (Leg Dbl) := do
  let d : St Dbl := ⟨⟨⟨1, 0, 0⟩, ⟨0, 1, 0⟩⟩, 1⟩
  let l ← Leg.make fl E d throttles d tof maxThrust isp mu cut tol
  let l := { l with rvms := { l.rvms with rv := rvs } }
  let l := { l with rvms := { l.rvms with m := ms } }
  let l := { l with rvmf := { l.rvmf with rv := rvf } }
  return { l with rvmf := { l.rvmf with m := mf } }

/-- Default constructor, include/kep3/leg/sims_flanagan_hf.hpp:157-182 and
src/leg/sims_flanagan_hf.cpp:46-71 (time of flight `pi/2` replaced by the rational `tof0`). -/
def Leg.default (tof0 : Dbl) : Leg Dbl :=
  { rvms := ⟨⟨⟨1, 0, 0⟩, ⟨0, 1, 0⟩⟩, 1⟩, throttles := [0, 0, 0, 0, 0, 0],
    thrusts := thrustsOf E 1 [0, 0, 0, 0, 0, 0], rvmf := ⟨⟨⟨0, 1, 0⟩, ⟨.fin (-1), 0, 0⟩⟩, 1⟩,
    tof := tof0, maxThrust := 1, isp := 1, mu := 1, cut := .fin (1 / 2), tol := .fin (1 / 10 ^ 16),
    nseg := 2, nsegFwd := 1, nsegBck := 1,
    tas := Integ.make E (.fin (1 / 10 ^ 16)) 1 1, tasVar := Integ.make E (.fin (1 / 10 ^ 16)) 1 1 }

/-- Recomputation of the segment numbers, e.g. src/leg/sims_flanagan_hf.cpp:166-168. -/
def updateSegs : Mut (Leg Dbl) Unit := do
  Mut.assign fun l => { l with nseg := nsegOf l.throttles.length }
  let f ← Mut.read fun l => nsegFwdOf fl l.nseg l.cut
  Mut.assign fun l => { l with nsegFwd := f }
  Mut.assign fun l => { l with nsegBck := usub l.nseg l.nsegFwd }

/-- Recomputation of the thrusts, e.g. src/leg/sims_flanagan_hf.cpp:170-173. -/
def updateThrusts : Mut (Leg Dbl) Unit :=
  Mut.assign fun l => { l with thrusts := thrustsOf E l.maxThrust l.throttles }

/-- `set_tof`, src/leg/sims_flanagan_hf.cpp:148-152. -/
def setTof (x : Dbl) : Mut (Leg Dbl) Unit := do
  Mut.call (checkTof x)
  Mut.assign fun l => { l with tof := x }
/-- `set_rvs`, src/leg/sims_flanagan_hf.cpp:153-157. -/
def setRvs (x : RV Dbl) : Mut (Leg Dbl) Unit :=
  Mut.assign fun l => { l with rvms := { l.rvms with rv := x } }
/-- `set_ms`, src/leg/sims_flanagan_hf.cpp:158-161. -/
def setMs (x : Dbl) : Mut (Leg Dbl) Unit :=
  Mut.assign fun l => { l with rvms := { l.rvms with m := x } }
/-- `set_throttles(const std::vector<double> &)`, src/leg/sims_flanagan_hf.cpp:162-174. -/
def setThrottles (t : List Dbl) : Mut (Leg Dbl) Unit := do
  Mut.call (checkThrottles t)
  Mut.assign fun l => { l with throttles := t }
  updateSegs fl
  updateThrusts E
/-- `set_throttles(it1, it2)`, src/leg/sims_flanagan_hf.cpp:175-192; positions `i1`, `i2` in a vector
`t` that is not the leg's own. -/
def setThrottlesRange (t : List Dbl) (i1 i2 : ℕ) : Mut (Leg Dbl) Unit := do
  Mut.call (if i1 ≤ t.length ∧ i2 ≤ t.length then .ok () else .ub)
  let d : Int := (i2 : Int) - i1
  Mut.call (throwIf (d.tmod 3 != 0 || decide (d ≤ 0)) .logicError)
  Mut.assign fun l => { l with throttles := (t.drop i1).take (i2 - i1) }
  updateSegs fl
  updateThrusts E
/-- `set_rvf`, src/leg/sims_flanagan_hf.cpp:193-197. -/
def setRvf (x : RV Dbl) : Mut (Leg Dbl) Unit :=
  Mut.assign fun l => { l with rvmf := { l.rvmf with rv := x } }
/-- `set_mf`, src/leg/sims_flanagan_hf.cpp:198-201. -/
def setMf (x : Dbl) : Mut (Leg Dbl) Unit :=
  Mut.assign fun l => { l with rvmf := { l.rvmf with m := x } }
/-- `set_max_thrust`, src/leg/sims_flanagan_hf.cpp:202-206. -/
def setMaxThrust (x : Dbl) : Mut (Leg Dbl) Unit := do
  Mut.call (checkMaxThrust x)
  Mut.assign fun l => { l with maxThrust := x }
/-- `set_isp`, src/leg/sims_flanagan_hf.cpp:207-211. -/
def setIsp (x : Dbl) : Mut (Leg Dbl) Unit := do
  Mut.call (checkIsp x)
  Mut.assign fun l => { l with isp := x }
/-- `set_mu`, src/leg/sims_flanagan_hf.cpp:212-216. -/
def setMu (x : Dbl) : Mut (Leg Dbl) Unit := do
  Mut.call (checkMu x)
  Mut.assign fun l => { l with mu := x }
/-- `set_cut`, src/leg/sims_flanagan_hf.cpp:217-223. -/
def setCut (x : Dbl) : Mut (Leg Dbl) Unit := do
  Mut.call (checkCut x)
  Mut.assign fun l => { l with cut := x }
  let f ← Mut.read fun l => nsegFwdOf fl l.nseg l.cut
  Mut.assign fun l => { l with nsegFwd := f }
  Mut.assign fun l => { l with nsegBck := usub l.nseg l.nsegFwd }
/-- `set_tol`, src/leg/sims_flanagan_hf.cpp:224-228. -/
def setTol (x : Dbl) : Mut (Leg Dbl) Unit := do
  Mut.call (checkTol x)
  Mut.assign fun l => { l with tol := x }
/-- `set_rvms`, src/leg/sims_flanagan_hf.cpp:229-232. -/
def setRvms (x : St Dbl) : Mut (Leg Dbl) Unit := Mut.assign fun l => { l with rvms := x }
/-- `set_rvmf`, src/leg/sims_flanagan_hf.cpp:233-236. -/
def setRvmf (x : St Dbl) : Mut (Leg Dbl) Unit := Mut.assign fun l => { l with rvmf := x }

/-- End of the `set` overloads: the checks on the values just stored, then the thrusts,
src/leg/sims_flanagan_hf.cpp:265-273, 289-297, 307-315. -/
def setTail : Mut (Leg Dbl) Unit := do
  updateSegs fl
  Mut.read fun l => sanityChecks l.throttles l.tof l.maxThrust l.isp l.mu l.cut l.tol l.nseg l.nsegFwd l.nsegBck
  updateThrusts E
/-- `set` with separate states and masses, src/leg/sims_flanagan_hf.cpp:246-274. -/
def setAllRv (rvs : RV Dbl) (ms : Dbl) (t : List Dbl) (rvf : RV Dbl) (mf tof mt isp mu cut tol : Dbl) :
    Mut (Leg Dbl) Unit := do
  setRvs rvs
  setMs ms
  setRvf rvf
  setMf mf
  Mut.assign fun l => { l with throttles := t, tof := tof, maxThrust := mt, isp := isp, mu := mu, cut := cut,
                               tol := tol }
  setTail fl E
/-- `set` with seven-component states, src/leg/sims_flanagan_hf.cpp:276-298. -/
def setAll (rvms : St Dbl) (t : List Dbl) (rvmf : St Dbl) (tof mt isp mu cut tol : Dbl) :
    Mut (Leg Dbl) Unit := do
  setRvms rvms
  Mut.assign fun l => { l with throttles := t }
  setRvmf rvmf
  Mut.assign fun l => { l with tof := tof, maxThrust := mt, isp := isp, mu := mu, cut := cut, tol := tol }
  setTail fl E
/-- `set` with states, throttles and time of flight, src/leg/sims_flanagan_hf.cpp:300-316. -/
def set4 (rvms : St Dbl) (t : List Dbl) (rvmf : St Dbl) (tof : Dbl) : Mut (Leg Dbl) Unit := do
  setRvms rvms
  Mut.assign fun l => { l with throttles := t }
  setRvmf rvmf
  Mut.assign fun l => { l with tof := tof }
  setTail fl E

/-- Seven consecutive entries of a vector. -/
def sevenAt (c : List Dbl) (k : ℕ) : Res (St Dbl) := do
  let r ← triple c k (k + 1) (k + 2)
  let v ← triple c (k + 3) (k + 4) (k + 5)
  match c[k + 6]? with
  | some m => .ok ⟨⟨r, v⟩, m⟩
  | none => .ub

/-- `set_and_compute_constraints`, src/leg/sims_flanagan_hf.cpp:482-495: the vector must have at least
15 + 3 nseg entries, which is not checked. -/
def setAndComputeConstraints (c : List Dbl) : Mut (Leg Dbl) (List Dbl) := do
  let n ← Mut.read fun l => .ok l.nseg
  let rvms ← Mut.call (sevenAt c 0)
  let t ← Mut.call (if 7 + n * 3 ≤ c.length then .ok ((c.drop 7).take (n * 3)) else .ub)
  let rvmf ← Mut.call (sevenAt c (7 + n * 3))
  let tof ← Mut.call (match c[7 + n * 3 + 7]? with | some x => .ok x | none => .ub)
  set4 fl E rvms t rvmf tof
  computeConstraints E

/-- The public member functions that can change the object (the `const` computations change the
integrators). -/
inductive Op
  | tof (x : Dbl) | rvs (x : RV Dbl) | ms (x : Dbl) | throttles (t : List Dbl)
  | range (t : List Dbl) (i1 i2 : ℕ) | rvf (x : RV Dbl) | mf (x : Dbl) | maxThrust (x : Dbl)
  | isp (x : Dbl) | mu (x : Dbl) | cut (x : Dbl) | tol (x : Dbl) | rvms (x : St Dbl) | rvmf (x : St Dbl)
  | setRv (rvs : RV Dbl) (ms : Dbl) (t : List Dbl) (rvf : RV Dbl) (mf tof mt isp mu cut tol : Dbl)
  | set (rvms : St Dbl) (t : List Dbl) (rvmf : St Dbl) (tof mt isp mu cut tol : Dbl)
  | set4 (rvms : St Dbl) (t : List Dbl) (rvmf : St Dbl) (tof : Dbl)
  | mismatch | gradients

/-- Call one member function (results dropped). -/
def Op.run : Op → Mut (Leg Dbl) Unit
  | .tof x => setTof x
  | .rvs x => setRvs x
  | .ms x => setMs x
  | .throttles t => setThrottles fl E t
  | .range t i1 i2 => setThrottlesRange fl E t i1 i2
  | .rvf x => setRvf x
  | .mf x => setMf x
  | .maxThrust x => setMaxThrust x
  | .isp x => setIsp x
  | .mu x => setMu x
  | .cut x => setCut fl x
  | .tol x => setTol x
  | .rvms x => setRvms x
  | .rvmf x => setRvmf x
  | .setRv a b c d e f g h i j k => setAllRv fl E a b c d e f g h i j k
  | .set a b c d e f g h i => setAll fl E a b c d e f g h i
  | .set4 a b c d => HF.set4 fl E a b c d
  | .mismatch => do let _ ← computeMismatch E
  | .gradients => do let _ ← computeAllGradients E

/-- A caller making a sequence of calls, catching exceptions and carrying on; `none` once undefined
behaviour has occurred. The Boolean list says which calls returned normally. -/
def runOps : List Op → Leg Dbl → Option (Leg Dbl × List Bool)
  | [], l => some (l, [])
  | op :: ops, l =>
    match op.run fl E l with
    | (.ub, _) => none
    | (r, l') => (runOps ops l').map fun x => (x.1, r.isOk :: x.2)

end checked

/-- `serialize`, include/kep3/leg/sims_flanagan_hf.hpp:136-155, writing (archive order; `m_vars`
left out). The variational integrator is not among the archived members. -/
def Leg.save {F : Type} (l : Leg F) :
    St F × List F × List F × F × St F × F × F × F × F × F × ℕ × ℕ × ℕ × Integ F :=
  (l.rvms, l.throttles, l.thrusts, l.tof, l.rvmf, l.maxThrust, l.isp, l.mu, l.cut, l.tol, l.nseg, l.nsegFwd,
    l.nsegBck, l.tas)

/-- `serialize`, reading into an existing leg (a default constructed one when unpickling). -/
def Leg.load {F : Type} (old : Leg F)
    (a : St F × List F × List F × F × St F × F × F × F × F × F × ℕ × ℕ × ℕ × Integ F) : Leg F :=
  let (rvms, th, thr, tof, rvmf, mt, isp, mu, cut, tol, n, f, b, tas) := a
  { old with rvms := rvms, throttles := th, thrusts := thr, tof := tof, rvmf := rvmf, maxThrust := mt, isp := isp,
             mu := mu, cut := cut, tol := tol, nseg := n, nsegFwd := f, nsegBck := b, tas := tas }

end Kep3.HF
