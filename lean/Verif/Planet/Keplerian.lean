import Verif.Planet.Model
import Verif.Lagr.Model

/-!
# Keplerian planets

`src/udpla/keplerian.cpp`, exact real arithmetic; the root finder of the anomaly conversion and of the propagator is a
parameter.
-/

namespace Kep3
open Real

/-- The data members, include/kep3/udpla/keplerian.hpp:29-38. The reference epoch is its mjd2000. `posVel0` and `kepF` are
`none` when some of the numbers are NaN; `sma` is the first element, which may be a number even then. -/
structure Keplerian where
  refEpoch : ℝ
  name : String
  muCentralBody : ℝ
  muSelf : ℝ
  radius : ℝ
  safeRadius : ℝ
  period : Option ℝ
  ellipse : Bool
  posVel0 : Option (RV ℝ)
  sma : Option ℝ
  kepF : Option Par

namespace Keplerian

/-- `m_period` of an ellipse, src/udpla/keplerian.cpp:45 and 89-90. -/
noncomputable def ellipsePeriod (a mu : ℝ) : Option ℝ := do
  let q ← div? (a * a * a) mu
  let s ← sqrt? q
  return π * 2 * s

/-- Constructor from position and velocity, src/udpla/keplerian.cpp:33-50. At the origin the energy is an infinity of the
sign of `-mu`, and the period is left out. -/
noncomputable def ofState (ref : ℝ) (x : RV ℝ) (mu : ℝ) (name : String) (muSelf radius safeRadius : ℝ) : Keplerian :=
  let R := √(x.r.x * x.r.x + x.r.y * x.r.y + x.r.z * x.r.z)
  let v2 := x.v.x * x.v.x + x.v.y * x.v.y + x.v.z * x.v.z
  let ellipse := if R = 0 then decide (0 ≤ mu) else !decide (0 < v2 / 2 - mu / R)
  { refEpoch := ref, name := name, muCentralBody := mu, muSelf := muSelf, radius := radius, safeRadius := safeRadius
    period := if ellipse ∧ R ≠ 0 then (div? (-mu / 2) (v2 / 2 - mu / R)).bind fun a => ellipsePeriod a mu else none
    ellipse := ellipse
    posVel0 := some x
    sma := ic2parA x mu
    kepF := ic2par x mu }

/-- The first component of the result of `eq2par`, src/core_astro/eq2par2eq.cpp:26, 34. -/
noncomputable def eq2parA (m : Meq) : Option ℝ :=
  let ecc := √(m.f * m.f + m.g * m.g)
  div? m.p (1 - ecc * ecc)

/-- The conversion to Keplerian elements with true anomaly: all six of them, and the semi-major axis and the
eccentricity, src/udpla/keplerian.cpp:66-83. -/
noncomputable def convert (sv : Solver) (el : Arr6) : ElType → Res (Option Par × Option ℝ × ℝ)
  | .kepF => .ok (some (Par.ofArr el), some (el 0), el 1)
  | .kepM =>
    if el 0 < 0 then .err .logicError
    else do
      let f ← m2f sv (el 5) (el 1)
      return (f.map fun f => { Par.ofArr el with f := f }, some (el 0), el 1)
  | .meq => .ok (eq2par (Meq.ofArr el) false, eq2parA (Meq.ofArr el), √(el 1 * el 1 + el 2 * el 2))
  | .meqR => .ok (eq2par (Meq.ofArr el) true, eq2parA (Meq.ofArr el), √(el 1 * el 1 + el 2 * el 2))
  | .posvel => .err .logicError

/-- `par2ic` on elements some of which may be NaN, src/core_astro/ic2par2ic.cpp:98-159: the first test
(lines 114-117) looks at the first two only; the second looks at the true anomaly, which is NaN when an angle is. -/
noncomputable def par2icN (q : Option Par) (a : Option ℝ) (e mu : ℝ) : Res (Option (RV ℝ)) :=
  match q with
  | some q => par2ic q mu
  | none => if a.any fun a => a * (1 - e) < 0 then .err .domainError else .ok none

/-- Constructor from elements, src/udpla/keplerian.cpp:52-94. -/
noncomputable def ofElements (sv : Solver) (ref : ℝ) (el : Arr6) (mu : ℝ) (name : String)
    (muSelf radius safeRadius : ℝ) (ty : ElType) : Res Keplerian :=
  if el 0 * (1 - el 1) ≤ 0 then .err .domainError
  else do
    let (q, a, e) ← convert sv el ty
    let x ← par2icN q a e mu
    let ellipse := !(a.any (· < 0))
    return { refEpoch := ref, name := name, muCentralBody := mu, muSelf := muSelf, radius := radius
             safeRadius := safeRadius
             period := if ellipse then a.bind fun a => ellipsePeriod a mu else none
             ellipse := ellipse
             posVel0 := x
             sma := a
             kepF := q }

/-- `eph`, src/udpla/keplerian.cpp:97-104. What the propagator does on a NaN state is the parameter `nan`. -/
noncomputable def eph (sv : Solver) (nan : Res (RV (Option ℝ))) (k : Keplerian) (t : ℝ) : Res (RV (Option ℝ)) :=
  let dt := (t - k.refEpoch) * DAY2SEC
  match k.posVel0 with
  | some x => do
    let y ← propagateLagrangian sv x dt k.muCentralBody
    return spread y
  | none => nan

/-- `elements`, src/udpla/keplerian.cpp:141-167. The epoch is not used. -/
noncomputable def elements (k : Keplerian) (_t : ℝ) : ElType → Res (Option Arr6)
  | .kepF => .ok (k.kepF.map Par.arr)
  | .kepM =>
    if !k.ellipse then .err .logicError
    else .ok do
      let q ← k.kepF
      let m ← f2m q.f q.e
      return Par.arr { q with f := m }
  | .meq => .ok do let q ← k.kepF; return Meq.arr (← par2eq q false)
  | .meqR => .ok do let q ← k.kepF; return Meq.arr (← par2eq q true)
  | .posvel => .err .logicError

/-- The methods, include/kep3/udpla/keplerian.hpp:67-81, src/udpla/keplerian.cpp:106-167. The text of `get_extra_info` is not
modelled. -/
noncomputable def udpla (sv : Solver) (nan : Res (RV (Option ℝ))) (info : String) (k : Keplerian) : Udpla where
  typeName := "kep3::udpla::keplerian"
  eph := eph sv nan k
  ephV := none
  muCentralBody := some (.ok k.muCentralBody)
  muSelf := some (.ok k.muSelf)
  radius := some (.ok k.radius)
  safeRadius := some (.ok k.safeRadius)
  name := some (.ok k.name)
  extraInfo := some (.ok info)
  period := some fun _ => .ok k.period
  elements := some (elements k)

end Keplerian
end Kep3
