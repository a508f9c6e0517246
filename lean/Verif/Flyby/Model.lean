import Verif.RealOps
import Verif.Elements.Frame

/-!
# Fly-bys

`src/core_astro/flyby.cpp`, exact real arithmetic. `none`: no number (NaN or infinity in the code).
In floating point the quotient handed to `std::acos` can exceed 1 by rounding: `Verif/Flyby/Double.lean`.
-/

namespace Kep3
open Real V3

/-- The turn angle in excess of the largest one available, src/core_astro/flyby.cpp:31-35 and 50-54. -/
noncomputable def fbIneq (vin vout : V3 ℝ) (mu safe : ℝ) : Option ℝ := do
  let Vin2 := vin.x * vin.x + vin.y * vin.y + vin.z * vin.z
  let Vout2 := vout.x * vout.x + vout.y * vout.y + vout.z * vout.z
  let q ← div? safe mu
  let e_min := 1 + q * Vin2
  let s ← sqrt? (Vin2 * Vout2)
  let c ← div? (vin.x * vout.x + vin.y * vout.y + vin.z * vout.z) s
  let alpha ← acos? c
  let ie ← div? 1 e_min
  let d ← asin? ie
  return alpha - 2 * d

/-- `fb_con`, src/core_astro/flyby.cpp:24-37. -/
noncomputable def fbCon (vin vout : V3 ℝ) (mu safe : ℝ) : ℝ × Option ℝ :=
  let Vin2 := vin.x * vin.x + vin.y * vin.y + vin.z * vin.z
  let Vout2 := vout.x * vout.x + vout.y * vout.y + vout.z * vout.z
  (Vin2 - Vout2, fbIneq vin vout mu safe)

/-- `fb_dv`, src/core_astro/flyby.cpp:45-65. The comparison with zero is false for a NaN. The argument of the square root
is non-negative (Vout2 + Vin2 is at least twice the root of their product). -/
noncomputable def fbDv (vin vout : V3 ℝ) (mu safe : ℝ) : ℝ :=
  let Vin2 := vin.x * vin.x + vin.y * vin.y + vin.z * vin.z
  let Vout2 := vout.x * vout.x + vout.y * vout.y + vout.z * vout.z
  match fbIneq vin vout mu safe with
  | some ineq => if 0 < ineq then √(Vout2 + Vin2 - 2 * √(Vout2 * Vin2) * cos ineq) else |√Vout2 - √Vin2|
  | none => |√Vout2 - √Vin2|

/-- `fb_vout`, src/core_astro/flyby.cpp:73-101, with `linalg::_cross` (src/linalg.cpp:25-28) and
`linalg::_normalize` (src/linalg.cpp:30-36). -/
noncomputable def fbVout (v_in v_pla : V3 ℝ) (rp beta mu : ℝ) : Option (V3 ℝ) := do
  let vrel : V3 ℝ := ⟨v_in.x - v_pla.x, v_in.y - v_pla.y, v_in.z - v_pla.z⟩
  let v2 := vrel.x * vrel.x + vrel.y * vrel.y + vrel.z * vrel.z
  let vn := √v2
  let q ← div? rp mu
  let ecc := 1 + q * v2
  let ie ← div? 1 ecc
  let d ← asin? ie
  let delta := 2 * d
  let i ← vdiv? vrel vn
  let j := cross i v_pla
  let j ← vdiv? j √(j.x * j.x + j.y * j.y + j.z * j.z)
  let k := cross i j
  return ⟨v_pla.x + vn * cos delta * i.x + vn * cos beta * sin delta * j.x + vn * sin beta * sin delta * k.x,
    v_pla.y + vn * cos delta * i.y + vn * cos beta * sin delta * j.y + vn * sin beta * sin delta * k.y,
    v_pla.z + vn * cos delta * i.z + vn * cos beta * sin delta * j.z + vn * sin beta * sin delta * k.z⟩

end Kep3
