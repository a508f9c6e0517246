import Verif.Basic
import Verif.RealOps
import Verif.V3

/-!
# Orbital elements

`src/core_astro/ic2par2ic.cpp`, `eq2par2eq.cpp`, `ic2eq2ic.cpp`. Exact real arithmetic; `none`: some
component of the result is not a number. xtensor expressions are evaluated eagerly.
-/

namespace Kep3

open Real

/-- Keplerian elements `[a, e, i, W, w, f]`. -/
@[ext] structure Par where
  a : ℝ
  e : ℝ
  i : ℝ
  Om : ℝ
  om : ℝ
  f : ℝ

/-- Modified equinoctial elements `[p, f, g, h, k, L]`. -/
@[ext] structure Meq where
  p : ℝ
  f : ℝ
  g : ℝ
  h : ℝ
  k : ℝ
  L : ℝ

/-- Division of a vector by a scalar. -/
noncomputable def vdiv? (v : V3 ℝ) (c : ℝ) : Option (V3 ℝ) :=
  if c = 0 then none else some ⟨v.x / c, v.y / c, v.z / c⟩

theorem vdiv?_ok {v : V3 ℝ} {c : ℝ} (h : c ≠ 0) : vdiv? v c = some ⟨v.x / c, v.y / c, v.z / c⟩ := if_neg h

/-- The unit vector `k`, src/core_astro/ic2par2ic.cpp:35. -/
def kHat : V3 ℝ := ⟨0, 0, 1⟩

/-- An angle from its cosine, replaced by `2 pi - angle` under a condition,
src/core_astro/ic2par2ic.cpp:69-72, 75-78, 82-87. -/
noncomputable def acosFlip (c : ℝ) (flip : Prop) [Decidable flip] : Option ℝ := do
  let x ← acos? c
  return if flip then 2 * π - x else x

open Classical in
/-- `ic2par`, src/core_astro/ic2par2ic.cpp:30-90. -/
noncomputable def ic2par (x : RV ℝ) (mu : ℝ) : Option Par := do
  let h := V3.cross x.r x.v
  let p ← div? (V3.dot h h) mu
  let n := V3.cross kHat h
  let n ← vdiv? n (V3.norm n)
  let R0 := V3.norm x.r
  let vh ← vdiv? (V3.cross x.v h) mu
  let ru ← vdiv? x.r R0
  let evett := vh - ru
  let e := V3.norm evett
  let a ← div? p (1 - e * e)
  let ci ← div? h.z (V3.norm h)
  let inc ← acos? ci
  let cw ← div? (V3.dot n evett) e
  let om ← acosFlip cw (evett.z < 0)
  let Om ← acosFlip n.x (n.y < 0)
  let cf ← div? (V3.dot evett x.r) e
  let cf ← div? cf R0
  let f ← acosFlip cf (V3.dot x.r x.v < 0)
  return ⟨a, e, inc, Om, om, f⟩

/-- First column of the rotation matrix, src/core_astro/ic2par2ic.cpp:144-147. -/
noncomputable def colP (i Om om : ℝ) : V3 ℝ :=
  ⟨cos Om * cos om - sin Om * sin om * cos i, sin Om * cos om + cos Om * sin om * cos i, sin om * sin i⟩
/-- Second column of the rotation matrix, src/core_astro/ic2par2ic.cpp:144-147. -/
noncomputable def colQ (i Om om : ℝ) : V3 ℝ :=
  ⟨-cos Om * sin om - sin Om * cos om * cos i, -sin Om * sin om + cos Om * cos om * cos i, cos om * sin i⟩

/-- `par2ic`, src/core_astro/ic2par2ic.cpp:98-159 (the third column of the rotation matrix is multiplied by 0). -/
noncomputable def par2ic (q : Par) (mu : ℝ) : Res (Option (RV ℝ)) :=
  if q.a * (1 - q.e) < 0 then .err .domainError
  else
    let cosf := cos q.f
    if 1 < q.e ∧ cosf < -1 / q.e then .err .domainError
    else .ok do
      let p := q.a * (1 - q.e * q.e)
      let r ← div? p (1 + q.e * cosf)
      let h ← sqrt? (p * mu)
      let sinf := sin q.f
      let mh ← div? mu h
      let xp := r * cosf
      let yp := r * sinf
      let xd := -mh * sinf
      let yd := mh * (q.e + cosf)
      let P := colP q.i q.Om q.om
      let Q := colQ q.i q.Om q.om
      return ⟨⟨P.x * xp + Q.x * yp, P.y * xp + Q.y * yp, P.z * xp + Q.z * yp⟩,
        ⟨P.x * xd + Q.x * yd, P.y * xd + Q.y * yd, P.z * xd + Q.z * yd⟩⟩

/-- `I`, src/core_astro/eq2par2eq.cpp:22-25, 53-59, src/core_astro/ic2eq2ic.cpp:37-42, 111-116. -/
def sgnI (retrograde : Bool) : ℝ := if retrograde then -1 else 1

/-- `if (x < 0) x += 2 * pi`, src/core_astro/eq2par2eq.cpp:29-31, 37-39. -/
noncomputable def wrapNeg (x : ℝ) : ℝ := if x < 0 then x + 2 * π else x

/-- `eq2par`, src/core_astro/eq2par2eq.cpp:19-48. -/
noncomputable def eq2par (q : Meq) (retrograde : Bool) : Option Par := do
  let I := sgnI retrograde
  let ecc := √(q.f * q.f + q.g * q.g)
  let tmp := √(q.h * q.h + q.k * q.k)
  let gs ← div? q.g ecc
  let gc ← div? q.f ecc
  let zita := wrapNeg (atan2 gs gc)
  let a ← div? q.p (1 - ecc * ecc)
  let inc := π / 2 * (1 - I) + 2 * I * arctan tmp
  let ks ← div? q.k tmp
  let kc ← div? q.h tmp
  let Om := wrapNeg (atan2 ks kc)
  let om := zita - I * Om
  let om := if om < 0 then om + 2 * π else if 2 * π < om then om - 2 * π else om
  return ⟨a, ecc, inc, Om, om, q.L - I * Om - om⟩

/-- `par2eq`, src/core_astro/eq2par2eq.cpp:50-68. -/
noncomputable def par2eq (q : Par) (retrograde : Bool) : Option Meq := do
  let I := sgnI retrograde
  let t ← tan? (q.i / 2)
  let t ← if retrograde then div? 1 t else some t
  return ⟨q.a * (1 - q.e * q.e), q.e * cos (q.om + I * q.Om), q.e * sin (q.om + I * q.Om),
    t * cos q.Om, t * sin q.Om, q.f + q.om + I * q.Om⟩

/-- `fv`, the first axis of the equinoctial frame, src/core_astro/ic2eq2ic.cpp:64-67, 128-131. -/
noncomputable def eqF (I h k : ℝ) : V3 ℝ :=
  let den := k * k + h * h + 1
  ⟨(1 - k * k + h * h) / den, 2 * k * h / den, -2 * I * k / den⟩
/-- `gv`, the second axis of the equinoctial frame, src/core_astro/ic2eq2ic.cpp:69-71, 133-135. -/
noncomputable def eqG (I h k : ℝ) : V3 ℝ :=
  let den := k * k + h * h + 1
  ⟨2 * I * k * h / den, (1 + k * k - h * h) * I / den, 2 * h / den⟩

open Classical in
/-- `X`, `Y`: the position in the equinoctial frame, src/core_astro/ic2eq2ic.cpp:84-99. -/
noncomputable def eqXY (fv gv r : V3 ℝ) : Option (ℝ × ℝ) :=
  let det1 := gv.y * fv.x - fv.y * gv.x
  let det2 := gv.z * fv.x - fv.z * gv.x
  let det3 := gv.z * fv.y - fv.z * gv.y
  let m := max |det1| (max |det2| |det3|)
  if |det1| = m then do
    let X ← div? (gv.y * r.x - gv.x * r.y) det1
    let Y ← div? (-fv.y * r.x + fv.x * r.y) det1
    return (X, Y)
  else if |det2| = m then do
    let X ← div? (gv.z * r.x - gv.x * r.z) det2
    let Y ← div? (-fv.z * r.x + fv.x * r.z) det2
    return (X, Y)
  else do
    let X ← div? (gv.z * r.y - gv.y * r.z) det3
    let Y ← div? (-fv.z * r.y + fv.y * r.z) det3
    return (X, Y)

/-- `ic2eq`, src/core_astro/ic2eq2ic.cpp:33-106. -/
noncomputable def ic2eq (x : RV ℝ) (mu : ℝ) (retrograde : Bool) : Option Meq := do
  let I := sgnI retrograde
  let ang := V3.cross x.r x.v
  let R0 := V3.norm x.r
  let V0 := V3.norm x.v
  let t1 ← div? 2 R0
  let t2 ← div? (V0 * V0) mu
  let sma ← div? 1 (t1 - t2)
  let w ← vdiv? ang (V3.norm ang)
  let k ← div? w.x (1 + I * w.z)
  let h ← div? (-w.y) (1 + I * w.z)
  let fv := eqF I h k
  let gv := eqG I h k
  let vh ← vdiv? (V3.cross x.v ang) mu
  let ru ← vdiv? x.r R0
  let evett := vh - ru
  let g := V3.dot evett gv
  let f := V3.dot evett fv
  let ecc := V3.norm evett
  let XY ← eqXY fv gv x.r
  let yr ← div? XY.2 R0
  let xr ← div? XY.1 R0
  return ⟨sma * (1 - ecc * ecc), f, g, h, k, atan2 yr xr⟩

/-- `eq2ic`, src/core_astro/ic2eq2ic.cpp:108-155. -/
noncomputable def eq2ic (q : Meq) (mu : ℝ) (retrograde : Bool) : Option (RV ℝ) := do
  let I := sgnI retrograde
  let par := |q.p|
  let fv := eqF I q.h q.k
  let gv := eqG I q.h q.k
  let radius ← div? par (1 + q.g * sin q.L + q.f * cos q.L)
  let mp ← div? mu par
  let s ← sqrt? mp
  let X := radius * cos q.L
  let Y := radius * sin q.L
  let VX := -s * (q.g + sin q.L)
  let VY := s * (q.f + cos q.L)
  return ⟨⟨X * fv.x + Y * gv.x, X * fv.y + Y * gv.y, X * fv.z + Y * gv.z⟩,
    ⟨VX * fv.x + VY * gv.x, VX * fv.y + VY * gv.y, VX * fv.z + VY * gv.z⟩⟩

end Kep3
