import Verif.Planet.Model
import Verif.Constants
import Verif.Dbl

/-!
# Low-precision JPL planets

`src/udpla/jpl_lp.cpp`, exact real arithmetic; the root finder of the anomaly conversion is a parameter. Names are
lists of characters; `boost::algorithm::to_lower` is the one of the "C" locale.
-/

namespace Kep3
open Real

/-- The data members, include/kep3/udpla/jpl_lp.hpp:37-43. -/
structure JplLp where
  elements0 : Arr6
  elementsDot : Arr6
  name : List Char
  muCentralBody : ℝ
  muSelf : ℝ
  radius : ℝ
  safeRadius : ℝ

namespace JplLp

/-- The elements at J2000 and their derivatives per century, src/udpla/jpl_lp.cpp:33-34. -/
noncomputable def mercury : Arr6 × Arr6 :=
  (![0.38709927, 0.20563593, 7.00497902, 252.25032350, 77.45779628, 48.33076593],
   ![0.00000037, 0.00001906, -0.00594749, 149472.67411175, 0.16047689, -0.12534081])
/-- src/udpla/jpl_lp.cpp:35-36. -/
noncomputable def venus : Arr6 × Arr6 :=
  (![0.72333566, 0.00677672, 3.39467605, 181.97909950, 131.60246718, 76.67984255],
   ![0.00000390, -0.00004107, -0.00078890, 58517.81538729, 0.00268329, -0.27769418])
/-- src/udpla/jpl_lp.cpp:37-38. -/
noncomputable def earthMoon : Arr6 × Arr6 :=
  (![1.00000261, 0.01671123, -0.00001531, 100.46457166, 102.93768193, 0.0],
   ![0.00000562, -0.00004392, -0.01294668, 35999.37244981, 0.32327364, 0.0])
/-- src/udpla/jpl_lp.cpp:39-40. -/
noncomputable def mars : Arr6 × Arr6 :=
  (![1.52371034, 0.09339410, 1.84969142, -4.55343205, -23.94362959, 49.55953891],
   ![0.00001847, 0.00007882, -0.00813131, 19140.30268499, 0.44441088, -0.29257343])
/-- src/udpla/jpl_lp.cpp:41-42. -/
noncomputable def jupiter : Arr6 × Arr6 :=
  (![5.20288700, 0.04838624, 1.30439695, 34.39644051, 14.72847983, 100.47390909],
   ![-0.00011607, -0.00013253, -0.00183714, 3034.74612775, 0.21252668, 0.20469106])
/-- src/udpla/jpl_lp.cpp:43-44. -/
noncomputable def saturn : Arr6 × Arr6 :=
  (![9.53667594, 0.05386179, 2.48599187, 49.95424423, 92.59887831, 113.66242448],
   ![-0.00125060, -0.00050991, 0.00193609, 1222.49362201, -0.41897216, -0.28867794])
/-- src/udpla/jpl_lp.cpp:45-46. -/
noncomputable def uranus : Arr6 × Arr6 :=
  (![19.18916464, 0.04725744, 0.77263783, 313.23810451, 170.95427630, 74.01692503],
   ![-0.00196176, -0.00004397, -0.00242939, 428.48202785, 0.40805281, 0.04240589])
/-- src/udpla/jpl_lp.cpp:47-48. -/
noncomputable def neptune : Arr6 × Arr6 :=
  (![30.06992276, 0.00859048, 1.77004347, -55.12002969, 44.96476227, 131.78422574],
   ![0.00026291, 0.00005105, 0.00035372, 218.45945325, -0.32241464, -0.00508664])

/-- `mapped_planets`, src/udpla/jpl_lp.cpp:52-54. -/
def mappedPlanets : List (List Char × ℕ) :=
  [("mercury".toList, 1), ("venus".toList, 2), ("earth".toList, 3), ("mars".toList, 4), ("jupiter".toList, 5),
   ("saturn".toList, 6), ("uranus".toList, 7), ("neptune".toList, 8), ("pluto".toList, 9)]

/-- The branches of the constructor: elements, radius, safe radius over radius, gravity parameter,
src/udpla/jpl_lp.cpp:61-123. -/
noncomputable def data : ℕ → Option ((Arr6 × Arr6) × ℝ × ℝ × ℝ)
  | 1 => some (mercury, 2440000, 1.1, 22032e9)
  | 2 => some (venus, 6052000, 1.1, 324859e9)
  | 3 => some (earthMoon, 6378000, 1.1, 398600.4418e9)
  | 4 => some (mars, 3397000, 1.1, 42828e9)
  | 5 => some (jupiter, 71492000, 9, 126686534e9)
  | 6 => some (saturn, 60330000, 1.1, 37931187e9)
  | 7 => some (uranus, 25362000, 1.1, 5793939e9)
  | 8 => some (neptune, 24622000, 1.1, 6836529e9)
  | _ => none

/-- Constructor, src/udpla/jpl_lp.cpp:56-125. -/
noncomputable def ofName (name : List Char) : Res JplLp :=
  let low := name.map Char.toLower
  match mappedPlanets.lookup low with
  | none => .err .outOfRange
  | some n =>
    match data n with
    | none => .err .logicError
    | some (el, radius, factor, mu) =>
      .ok { elements0 := el.1, elementsDot := el.2, name := low ++ " - jpl_lp".toList, muCentralBody := MU_SUN,
            muSelf := mu, radius := radius, safeRadius := factor * radius }

/-- `elements_updated`, src/udpla/jpl_lp.cpp:137-140. -/
noncomputable def updated (p : JplLp) (t : ℝ) (i : Fin 6) : ℝ :=
  let dt := (t - 0.5) / 36525
  p.elements0 i + p.elementsDot i * dt

/-- The test of the date as it is made on doubles, src/udpla/jpl_lp.cpp:130. -/
def dateRefused (t : Dbl) : Bool := Dbl.le t (.fin (-73048)) || Dbl.le (.fin 18263) t

/-- `_f_elements`, src/udpla/jpl_lp.cpp:128-149. -/
noncomputable def fElements (sv : Solver) (p : JplLp) (t : ℝ) : Res (Option Par) :=
  if t ≤ -73048 ∨ 18263 ≤ t then .err .domainError
  else do
    let u := p.updated t
    let f ← m2f sv ((u 3 - u 4) * DEG2RAD) (u 1)
    return f.map fun f =>
      { a := u 0 * AU, e := u 1, i := u 2 * DEG2RAD, Om := u 5 * DEG2RAD, om := (u 4 - u 5) * DEG2RAD, f := f }

/-- `eph`, src/udpla/jpl_lp.cpp:151-155. When the true anomaly is NaN the tests of `par2ic` do not stop it, as the
semi-major axis and the eccentricity of the tables are those of an ellipse. -/
noncomputable def eph (sv : Solver) (p : JplLp) (t : ℝ) : Res (RV (Option ℝ)) := do
  let q ← fElements sv p t
  match q with
  | some q =>
    let x ← par2ic q p.muCentralBody
    return spread x
  | none => return spread none

/-- `elements`, src/udpla/jpl_lp.cpp:157-176. -/
noncomputable def elements (sv : Solver) (p : JplLp) (t : ℝ) (ty : ElType) : Res (Option Arr6) := do
  let q ← fElements sv p t
  match ty with
  | .kepF => return q.map Par.arr
  | .kepM => return do
    let q ← q
    let m ← f2m q.f q.e
    return Par.arr { q with f := m }
  | .meq => return do let q ← q; return Meq.arr (← par2eq q false)
  | .meqR => return do let q ← q; return Meq.arr (← par2eq q true)
  | .posvel => .err .logicError

/-- The methods, include/kep3/udpla/jpl_lp.hpp:63-72, src/udpla/jpl_lp.cpp:151-201. The text of `get_extra_info` is not
modelled. -/
noncomputable def udpla (sv : Solver) (info : Res String) (p : JplLp) : Udpla where
  typeName := "kep3::udpla::jpl_lp"
  eph := eph sv p
  ephV := none
  muCentralBody := some (.ok p.muCentralBody)
  muSelf := some (.ok p.muSelf)
  radius := some (.ok p.radius)
  safeRadius := some (.ok p.safeRadius)
  name := some (.ok (String.ofList p.name))
  extraInfo := some info
  period := none
  elements := some (elements sv p)

end JplLp
end Kep3
