import Verif.Kepler.Anomalies
import Verif.Elements.Model
import Verif.Flyby.Model

/-!
# Planets

`include/kep3/planet.hpp`, `src/planet.cpp` and `pykep/python_udpla.cpp`. A user class is the record of the methods it
has; the `if constexpr` on the concepts `udpla_has_*` (include/kep3/planet.hpp:36-71) and, for Python objects, the test
for a callable attribute (pykep/common_utils.cpp:49-58) are pattern matches on that record. A double is an `Option ℝ`,
`none` for NaN and infinities. Exact real arithmetic.
-/

namespace Kep3
open Real

/-- `elements_type`, include/kep3/core_astro/constants.hpp:18-24. -/
inductive ElType
  | kepM | kepF | meq | meqR | posvel
  deriving DecidableEq, Repr

/-- `std::array<double, 6>`. -/
abbrev Arr6 := Fin 6 → ℝ

/-- The array that `ic2par` returns, src/core_astro/ic2par2ic.cpp:36, 64-89. -/
def Par.arr (q : Par) : Arr6 := ![q.a, q.e, q.i, q.Om, q.om, q.f]
/-- The elements in the order that `par2ic` reads them, src/core_astro/ic2par2ic.cpp:107-112. -/
def Par.ofArr (u : Arr6) : Par := ⟨u 0, u 1, u 2, u 3, u 4, u 5⟩
/-- The array that `par2eq` returns, src/core_astro/eq2par2eq.cpp:61-67. -/
def Meq.arr (m : Meq) : Arr6 := ![m.p, m.f, m.g, m.h, m.k, m.L]
/-- The elements in the order that `eq2par` reads them, src/core_astro/eq2par2eq.cpp:26-42. -/
def Meq.ofArr (u : Arr6) : Meq := ⟨u 0, u 1, u 2, u 3, u 4, u 5⟩

/-- Position and velocity, when all six components are numbers. -/
def nums (x : RV (Option ℝ)) : Option (RV ℝ) := do
  let a ← x.r.x; let b ← x.r.y; let c ← x.r.z
  let d ← x.v.x; let e ← x.v.y; let f ← x.v.z
  return ⟨⟨a, b, c⟩, ⟨d, e, f⟩⟩

/-- A state all of whose components are numbers, or none of them. -/
def spread : Option (RV ℝ) → RV (Option ℝ)
  | some x => ⟨⟨some x.r.x, some x.r.y, some x.r.z⟩, ⟨some x.v.x, some x.v.y, some x.v.z⟩⟩
  | none => ⟨⟨none, none, none⟩, ⟨none, none, none⟩⟩

/-- `period_from_energy`, src/planet.cpp:28-40. At the origin the code computes with infinities: `none` here. -/
noncomputable def periodFromEnergy (x : RV ℝ) (mu : ℝ) : Option ℝ := do
  let R := √(x.r.x * x.r.x + x.r.y * x.r.y + x.r.z * x.r.z)
  let v2 := x.v.x * x.v.x + x.v.y * x.v.y + x.v.z * x.v.z
  let q ← div? mu R
  let en := v2 / 2 - q
  if 0 < en then none
  else do
    let a ← div? (-mu / 2) en
    let s ← div? (a * a * a) mu
    let s ← sqrt? s
    return π * 2 * s

/-- The first component of the result of `ic2par`, src/core_astro/ic2par2ic.cpp:38-65. It can be a number when others
(the angles of equatorial or circular orbits) are not. -/
noncomputable def ic2parA (x : RV ℝ) (mu : ℝ) : Option ℝ := do
  let h := V3.cross x.r x.v
  let p ← div? (V3.dot h h) mu
  let R0 := V3.norm x.r
  let vh ← vdiv? (V3.cross x.v h) mu
  let ru ← vdiv? x.r R0
  let e := V3.norm (vh - ru)
  div? p (1 - e * e)

/-- `elements_from_posvel`, src/planet.cpp:42-67. -/
noncomputable def elementsFromPosvel (x : RV ℝ) (mu : ℝ) (t : ElType) : Res (Option Arr6) :=
  match t with
  | .kepF => .ok ((ic2par x mu).map Par.arr)
  | .kepM =>
    if (ic2parA x mu).any (· < 1) then .err .logicError
    else .ok do
      let q ← ic2par x mu
      let m ← f2m q.f q.e
      return Par.arr { q with f := m }
  | .meq => .ok do let q ← ic2par x mu; return Meq.arr (← par2eq q false)
  | .meqR => .ok do let q ← ic2par x mu; return Meq.arr (← par2eq q true)
  | .posvel => .err .logicError

/-- A class that can be used as a planet: the mandatory method and the optional ones it has
(include/kep3/planet.hpp:36-75). -/
structure Udpla where
  typeName : String
  eph : ℝ → Res (RV (Option ℝ))
  ephV : Option (List ℝ → Res (List (Option ℝ)))
  muCentralBody : Option (Res ℝ)
  muSelf : Option (Res ℝ)
  radius : Option (Res ℝ)
  safeRadius : Option (Res ℝ)
  name : Option (Res String)
  extraInfo : Option (Res String)
  period : Option (ℝ → Res (Option ℝ))
  elements : Option (ℝ → ElType → Res (Option Arr6))

/-- One iteration of the loop of `default_eph_vectorization`: the six assignments, include/kep3/planet.hpp:138-144. -/
def writeRow {α : Type} (buf : List α) (i : Nat) (x : RV α) : List α :=
  (((((buf.set (6 * i) x.r.x).set (6 * i + 1) x.r.y).set (6 * i + 2) x.r.z).set (6 * i + 3) x.v.x).set (6 * i + 4)
    x.v.y).set (6 * i + 5) x.v.z

/-- The loop of `default_eph_vectorization` from index `i` on, include/kep3/planet.hpp:137-145. -/
def ephLoop {α : Type} (eph : ℝ → Res (RV α)) : List ℝ → Nat → List α → Res (List α)
  | [], _, buf => .ok buf
  | t :: ts, i, buf => do
    let x ← eph t
    ephLoop eph ts (i + 1) (writeRow buf i x)

/-- `default_eph_vectorization`, include/kep3/planet.hpp:128-147; `zero` is the value-initialised double. The
overflow check of the size (lists of more than 2^61 epochs) is left out. -/
def defaultEphV {α : Type} (zero : α) (eph : ℝ → Res (RV α)) (ts : List ℝ) : Res (List α) :=
  ephLoop eph ts 0 (List.replicate (ts.length * 6) zero)

namespace Planet

/-- `get_mu_central_body`, include/kep3/planet.hpp:114-122, 153. -/
def getMuCentralBody (u : Udpla) : Res ℝ := u.muCentralBody.getD (.ok (-1))
/-- `get_mu_self`, include/kep3/planet.hpp:114-122, 154. -/
def getMuSelf (u : Udpla) : Res ℝ := u.muSelf.getD (.ok (-1))
/-- `get_radius`, include/kep3/planet.hpp:114-122, 155. -/
def getRadius (u : Udpla) : Res ℝ := u.radius.getD (.ok (-1))
/-- `get_safe_radius`, include/kep3/planet.hpp:114-122, 156. -/
def getSafeRadius (u : Udpla) : Res ℝ := u.safeRadius.getD (.ok (-1))
/-- `get_name`, include/kep3/planet.hpp:114-122, 157. -/
def getName (u : Udpla) : Res String := u.name.getD (.ok u.typeName)
/-- `get_extra_info`, include/kep3/planet.hpp:114-122, 158. -/
def getExtraInfo (u : Udpla) : Res String := u.extraInfo.getD (.ok "")

/-- `eph(double)`, include/kep3/planet.hpp:160-163. -/
def eph (u : Udpla) (t : ℝ) : Res (RV (Option ℝ)) := u.eph t

/-- `eph_v`, include/kep3/planet.hpp:165-172. -/
def ephV (u : Udpla) (ts : List ℝ) : Res (List (Option ℝ)) :=
  match u.ephV with
  | some f => f ts
  | none => defaultEphV (some 0) (eph u) ts

/-- `period(double)`, include/kep3/planet.hpp:175-192. -/
noncomputable def period (u : Udpla) (t : ℝ) : Res (Option ℝ) :=
  match u.period with
  | some f => f t
  | none =>
    match u.muCentralBody with
    | some _ => do
      let x ← eph u t
      let mu ← getMuCentralBody u
      return (nums x).bind fun x => periodFromEnergy x mu
    | none => .err .notImplemented

/-- `elements(double, elements_type)`, include/kep3/planet.hpp:195-214. -/
noncomputable def elements (u : Udpla) (t : ℝ) (el : ElType) : Res (Option Arr6) :=
  match u.elements with
  | some f => f t el
  | none =>
    match u.muCentralBody with
    | some _ => do
      let x ← eph u t
      let mu ← getMuCentralBody u
      match nums x with
      | some x => elementsFromPosvel x mu el
      | none => if el = .posvel then .err .logicError else return none
    | none => .err .notImplemented

/-- `planet_iface::eph(const epoch &)`, src/planet.cpp:78-81. `mjd2000` is the member function of `epoch`. -/
def ephE {Ep : Type} (mjd2000 : Ep → ℝ) (u : Udpla) (ep : Ep) : Res (RV (Option ℝ)) := eph u (mjd2000 ep)
/-- `planet_iface::elements(const epoch &, elements_type)`, src/planet.cpp:83-86. -/
noncomputable def elementsE {Ep : Type} (mjd2000 : Ep → ℝ) (u : Udpla) (ep : Ep) (el : ElType) : Res (Option Arr6) :=
  elements u (mjd2000 ep) el
/-- `planet_iface::period(const epoch &)`, src/planet.cpp:88-91. -/
noncomputable def periodE {Ep : Type} (mjd2000 : Ep → ℝ) (u : Udpla) (ep : Ep) : Res (Option ℝ) := period u (mjd2000 ep)

end Planet

/-- The type `null_udpla`, include/kep3/planet.hpp:220-228, src/planet.cpp:69-74. -/
def nullUdpla : Udpla where
  typeName := "kep3::detail::null_udpla"
  eph := fun _ => .ok ⟨⟨some 1, some 0, some 0⟩, ⟨some 0, some 1, some 0⟩⟩
  ephV := none
  muCentralBody := none
  muSelf := none
  radius := none
  safeRadius := none
  name := none
  extraInfo := none
  period := none
  elements := none

/-- `python_udpla`, pykep/python_udpla.cpp:46-155: a C++ class that has every method, around a Python object `o`, which
is again a record of the callable attributes it has (`typeName` is `str(type(o))`). The conversions between Python and
C++ values are not modelled. -/
noncomputable def pythonUdpla (o : Udpla) : Udpla where
  typeName := "pykep::python_udpla"
  eph := o.eph
  ephV := some fun ts => match o.ephV with
    | some f => f ts
    | none => defaultEphV (some 0) o.eph ts
  muCentralBody := some (o.muCentralBody.getD (.ok (-1)))
  muSelf := some (o.muSelf.getD (.ok (-1)))
  radius := some (o.radius.getD (.ok (-1)))
  safeRadius := some (o.safeRadius.getD (.ok (-1)))
  name := some (o.name.getD (.ok o.typeName))
  extraInfo := some (o.extraInfo.getD (.ok ""))
  period := some fun t => match o.period with
    | some f => f t
    | none => match o.muCentralBody with
      | none => .err .notImplemented
      | some _ => do
        let x ← o.eph t
        let mu ← o.muCentralBody.getD (.ok (-1))
        return do
          let x ← nums x
          let R := √(x.r.x * x.r.x + x.r.y * x.r.y + x.r.z * x.r.z)
          let v2 := x.v.x * x.v.x + x.v.y * x.v.y + x.v.z * x.v.z
          let q ← div? mu R
          let en := v2 / 2 - q
          if 0 < en then none
          else do
            let a ← div? (-mu / 2) en
            let s ← div? (a * a * a) mu
            let s ← sqrt? s
            return π * 2 * s
  elements := some fun t el => match o.elements with
    | some f => f t el
    | none => match o.muCentralBody with
      | some _ => do
        let x ← o.eph t
        let mu ← o.muCentralBody.getD (.ok (-1))
        match nums x with
        | some x => elementsFromPosvel x mu el
        | none => if el = .posvel then .err .logicError else return none
      | none => .err .notImplemented

/-- `fb_con(v_in, v_out, planet)`, src/core_astro/flyby.cpp:39-43. -/
noncomputable def fbConPl (vin vout : V3 ℝ) (u : Udpla) : Res (ℝ × Option ℝ) := do
  let mu ← Planet.getMuSelf u
  let safe ← Planet.getSafeRadius u
  return fbCon vin vout mu safe

/-- `fb_dv(v_in, v_out, planet)`, src/core_astro/flyby.cpp:67-70. -/
noncomputable def fbDvPl (vin vout : V3 ℝ) (u : Udpla) : Res ℝ := do
  let mu ← Planet.getMuSelf u
  let safe ← Planet.getSafeRadius u
  return fbDv vin vout mu safe

end Kep3
