import Verif.Kepler.Anomalies
import Verif.Elements.Model

/-!
# Propagators

`src/core_astro/propagate_lagrangian.cpp`, exact real arithmetic. `none`: no number. An exactly parabolic state
(`energy == 0`) gives an infinite semi-major axis and `0 * inf` later on: `none`.
-/

namespace Kep3

open Real

/-- The local variables of `propagate_lagrangian` that the assembly and the state transition matrix use,
src/core_astro/propagate_lagrangian.cpp:42-51, 94-101, 136-143. -/
structure Lagr where
  R0 : ℝ
  Rf : ℝ
  energy : ℝ
  sigma0 : ℝ
  a : ℝ
  s0 : ℝ
  c0 : ℝ
  DX : ℝ
  F : ℝ
  G : ℝ
  Ft : ℝ
  Gt : ℝ

/-- The initial guess for the eccentric anomaly difference, src/core_astro/propagate_lagrangian.cpp:69-73. -/
noncomputable def igDE (DMc sinDM cosDM s0 c0 : ℝ) : ℝ :=
  DMc + c0 * sinDM - s0 * (1 - cosDM)
    + (c0 * cosDM - s0 * sinDM) * (c0 * sinDM + s0 * cosDM - s0)
    + (1 / 2 : ℝ) * (c0 * sinDM + s0 * cosDM - s0)
      * (2 * (c0 * cosDM - s0 * sinDM) ^ 2 - (c0 * sinDM + s0 * cosDM - s0) * (c0 * sinDM + s0 * cosDM))

/-- `F`, `G`, `Ft`, `Gt` of the elliptic case, src/core_astro/propagate_lagrangian.cpp:94-101. -/
noncomputable def coeffE (mu R0 energy sigma0 a sqrta s0 c0 DE : ℝ) : Option Lagr := do
  let Rf := a + (R0 - a) * cos DE + sigma0 * sqrta * sin DE
  let q1 ← div? a R0
  let q2 ← div? (a * sigma0) √mu
  let q3 ← div? a mu
  let q3 ← sqrt? q3
  let q4 ← sqrt? (mu * a)
  let q4 ← div? (-q4) (Rf * R0)
  let q5 ← div? a Rf
  return { R0 := R0, Rf := Rf, energy := energy, sigma0 := sigma0, a := a, s0 := s0, c0 := c0, DX := DE,
           F := 1 - q1 * (1 - cos DE), G := q2 * (1 - cos DE) + R0 * q3 * sin DE, Ft := q4 * sin DE,
           Gt := 1 - q5 * (1 - cos DE) }

/-- `F`, `G`, `Ft`, `Gt` of the hyperbolic case, src/core_astro/propagate_lagrangian.cpp:136-143. -/
noncomputable def coeffH (mu R0 energy sigma0 a sqrta s0 c0 DH : ℝ) : Option Lagr := do
  let Rf := a + (R0 - a) * cosh DH + sigma0 * sqrta * sinh DH
  let q1 ← div? a R0
  let q2 ← div? (a * sigma0) √mu
  let q3 ← div? (-a) mu
  let q3 ← sqrt? q3
  let q4 ← sqrt? (-mu * a)
  let q4 ← div? (-q4) (Rf * R0)
  let q5 ← div? a Rf
  return { R0 := R0, Rf := Rf, energy := energy, sigma0 := sigma0, a := a, s0 := s0, c0 := c0, DX := DH,
           F := 1 - q1 * (1 - cosh DH), G := q2 * (1 - cosh DH) + R0 * q3 * sinh DH, Ft := q4 * sinh DH,
           Gt := 1 - q5 * (1 - cosh DH) }

/-- The branch `a > 0`, src/core_astro/propagate_lagrangian.cpp:53-101. -/
noncomputable def lagrE (sv : Solver) (tof mu R0 energy sigma0 a : ℝ) : Res (Option Lagr) :=
  let sqrta := √a
  let DM := √(mu / a ^ 3) * tof
  let sinDM := sin DM
  let cosDM := cos DM
  let DMc := wrapNeg (atan2 sinDM cosDM)
  let s0 := sigma0 / sqrta
  let c0 := 1 - R0 / a
  let IG := igDE DMc sinDM cosDM s0 c0
  let s := sv (fun DE => (kepDE DE DMc sigma0 sqrta a R0, d_kepDE DE sigma0 sqrta a R0)) IG (IG - π) (IG + π)
  if s.2 = 100 then .err .domainError
  else .ok (coeffE mu R0 energy sigma0 a sqrta s0 c0 s.1)

/-- The branch `a < 0`, src/core_astro/propagate_lagrangian.cpp:102-144. -/
noncomputable def lagrH (sv : Solver) (tof mu R0 energy sigma0 a : ℝ) : Res (Option Lagr) :=
  let sqrta := √(-a)
  let DN := √(-mu / a / a / a) * tof
  let s0 := sigma0 / sqrta
  let c0 := 1 - R0 / a
  let IG := if 0 < tof then 1 else -1
  let s := sv (fun DH => (kepDH DH DN sigma0 sqrta a R0, d_kepDH DH sigma0 sqrta a R0)) IG (IG - 50) (IG + 50)
  if s.2 = 100 then .err .domainError
  else .ok (coeffH mu R0 energy sigma0 a sqrta s0 c0 s.1)

/-- The Lagrange coefficients and the other local variables, src/core_astro/propagate_lagrangian.cpp:39-144. No number
when `mu <= 0`, at the origin, or for a parabola. -/
noncomputable def lagr (sv : Solver) (x : RV ℝ) (tof mu : ℝ) : Res (Option Lagr) :=
  let R0 := √(x.r.x * x.r.x + x.r.y * x.r.y + x.r.z * x.r.z)
  let V02 := x.v.x * x.v.x + x.v.y * x.v.y + x.v.z * x.v.z
  if mu ≤ 0 ∨ R0 = 0 then .ok none
  else
    let energy := V02 / 2 - mu / R0
    if energy = 0 then .ok none
    else
      let a := -mu / 2 / energy
      let sigma0 := (x.r.x * x.v.x + x.r.y * x.v.y + x.r.z * x.v.z) / √mu
      if 0 < a then lagrE sv tof mu R0 energy sigma0 a else lagrH sv tof mu R0 energy sigma0 a

/-- The final state, src/core_astro/propagate_lagrangian.cpp:146-149. -/
def Lagr.state (q : Lagr) (x : RV ℝ) : RV ℝ :=
  ⟨⟨q.F * x.r.x + q.G * x.v.x, q.F * x.r.y + q.G * x.v.y, q.F * x.r.z + q.G * x.v.z⟩,
   ⟨q.Ft * x.r.x + q.Gt * x.v.x, q.Ft * x.r.y + q.Gt * x.v.y, q.Ft * x.r.z + q.Gt * x.v.z⟩⟩

/-- First component of the result of `propagate_lagrangian`, src/core_astro/propagate_lagrangian.cpp:36-156. -/
noncomputable def propagateLagrangian (sv : Solver) (x : RV ℝ) (tof mu : ℝ) : Res (Option (RV ℝ)) := do
  let q ← lagr sv x tof mu
  return q.map fun q => q.state x

/-- First components of the result of `propagate_lagrangian_v`, src/core_astro/propagate_lagrangian.cpp:158-168. -/
noncomputable def propagateLagrangianV (sv : Solver) (x : RV ℝ) (tofs : List ℝ) (mu : ℝ) :
    Res (List (Option (RV ℝ))) :=
  tofs.mapM fun tof => propagateLagrangian sv x tof mu

/-- The part of `propagate_lagrangian_u` after the root finder: position, then velocity,
src/core_astro/propagate_lagrangian.cpp:226-247. `v` is the initial velocity, reversed for a negative time. -/
noncomputable def uState (r v : V3 ℝ) (R0 alpha mu dt DS : ℝ) : Option (RV ℝ) := do
  let S := stumpffS (alpha * DS * DS)
  let C := stumpffC (alpha * DS * DS)
  let z := alpha * DS * DS
  let F := 1 - DS * DS / R0 * C
  let G := dt - 1 / √mu * DS * DS * DS * S
  let rf : V3 ℝ := ⟨F * r.x + G * v.x, F * r.y + G * v.y, F * r.z + G * v.z⟩
  let RF := √(rf.x * rf.x + rf.y * rf.y + rf.z * rf.z)
  let q ← div? √mu RF
  let Ft := q / R0 * (z * S - 1) * DS
  let q ← div? (DS * DS) RF
  let Gt := 1 - q * C
  return ⟨rf, ⟨Ft * r.x + Gt * v.x, Ft * r.y + Gt * v.y, Ft * r.z + Gt * v.z⟩⟩

/-- First component of the result of `propagate_lagrangian_u`, src/core_astro/propagate_lagrangian.cpp:176-256. -/
noncomputable def propagateLagrangianU (sv : Solver) (x : RV ℝ) (dt mu : ℝ) : Res (Option (RV ℝ)) :=
  let dtc := if dt < 0 then -dt else dt
  let v := if dt < 0 then -x.v else x.v
  let R0 := √(x.r.x * x.r.x + x.r.y * x.r.y + x.r.z * x.r.z)
  let V02 := v.x * v.x + v.y * v.y + v.z * v.z
  if mu ≤ 0 ∨ R0 = 0 then .ok none
  else
    let alpha := 2 / R0 - V02 / mu
    let VR0 := (x.r.x * v.x + x.r.y * v.y + x.r.z * v.z) / R0
    let IG := if 0 < alpha then √mu * dtc * |alpha| else 3
    let s := sv (fun DS => (kepDS DS dtc R0 VR0 alpha mu, d_kepDS DS R0 VR0 alpha mu)) IG (IG - 2 * π) (IG + 2 * π)
    if s.2 = 100 then .err .domainError
    else
      .ok ((uState x.r v R0 alpha mu dtc s.1).map fun y => if dt < 0 then ⟨y.r, -y.v⟩ else y)

/-- The updated true anomaly of `propagate_keplerian`, src/core_astro/propagate_lagrangian.cpp:271-286. -/
noncomputable def kepAnomaly (sv : Solver) (q : Par) (dt mu : ℝ) : Res (Option ℝ) :=
  if 0 < q.a then
    match f2m q.f q.e with
    | none => .ok none
    | some M0 => m2f sv (M0 + √(mu / q.a / q.a / q.a) * dt) q.e
  else
    match f2n q.f q.e with
    | none => .ok none
    | some N0 => n2f sv (N0 + √(-mu / q.a / q.a / q.a) * dt) q.e

/-- First component of the result of `propagate_keplerian`, src/core_astro/propagate_lagrangian.cpp:265-290. When
`ic2par` or an anomaly conversion gives no number, so does this function (the code goes on computing with NaNs). -/
noncomputable def propagateKeplerian (sv : Solver) (x : RV ℝ) (dt mu : ℝ) : Res (Option (RV ℝ)) :=
  match ic2par x mu with
  | none => .ok none
  | some q => do
    match ← kepAnomaly sv q dt mu with
    | none => .ok none
    | some f => par2ic { q with f := f } mu

end Kep3
