import Verif.Elements.Double
import Verif.Lagr.UDouble

/-!
# The outgoing velocity of a fly-by in double precision

`fb_vout` of `src/core_astro/flyby.cpp` with every operation rounded. Not modelled: overflow, underflow, and contraction of products and
sums into fused operations.
-/

namespace Kep3
open Real V3 Fl

/-- One component of the outgoing velocity, src/core_astro/flyby.cpp:89-97: `p + vn * cd * i + vn * cb * sd * j + vn * sb * sd * k`
from left to right. -/
noncomputable def outD (A : Arith) (vn cd sd cb sb p i j k : ℝ) : ℝ :=
  A.rd (A.rd (A.rd (p + A.rd (A.rd (vn * cd) * i)) + A.rd (A.rd (A.rd (vn * cb) * sd) * j)) + A.rd (A.rd (A.rd (vn * sb) * sd) * k))

/-- The turn angle, src/core_astro/flyby.cpp:81-82, from the square of the relative speed. -/
noncomputable def turnD (A : Arith) (rp mu v2 : ℝ) : Option ℝ := do
  let q ← A.div? rp mu
  let ie ← A.div? 1 (A.rd (1 + A.rd (q * v2)))
  let d ← A.asin? ie
  return A.rd (2 * d)

/-- `linalg::_normalize`, src/linalg.cpp:30-36. -/
noncomputable def normalizeD (A : Arith) (v : V3 ℝ) : Option (V3 ℝ) := A.vdiv? v (A.rd √(A.dot v v))

/-- `fb_vout`, src/core_astro/flyby.cpp:73-101, with `linalg::_cross` (src/linalg.cpp:25-28) and rounding. -/
noncomputable def fbVoutD (A : Libm) (v_in v_pla : V3 ℝ) (rp beta mu : ℝ) : Option (V3 ℝ) := do
  let vrel := A.sub v_in v_pla
  let v2 := A.dot vrel vrel
  let vn := A.rd √v2
  let delta ← turnD A.toArith rp mu v2
  let i ← A.vdiv? vrel vn
  let j ← normalizeD A.toArith (A.cross i v_pla)
  let k := A.cross i j
  let out := outD A.toArith vn (A.cos delta) (A.sin delta) (A.cos beta) (A.sin beta)
  return ⟨out v_pla.x i.x j.x k.x, out v_pla.y i.y j.y k.y, out v_pla.z i.z j.z k.z⟩

/-- Without rounding this is the model of `Verif/Flyby/Model.lean`. -/
theorem fbVoutD_exact (v_in v_pla : V3 ℝ) (rp beta mu : ℝ) : fbVoutD Libm.exact v_in v_pla rp beta mu = fbVout v_in v_pla rp beta mu := by
  unfold fbVoutD fbVout turnD normalizeD outD Arith.div? Arith.asin? Arith.vdiv? Arith.sub Arith.cross Arith.dot Libm.exact Arith.exact asin?
    vdiv?
  simp only [id, Option.map_id_fun, bind_assoc, pure_bind]
  rfl

end Kep3
