import Verif.Elements.Model
import Verif.Kepler.Double
import Verif.Lagr.Double

/-!
# `eq2par` and `par2eq` with rounding

Simplified: exponents are unbounded, no fused operations. Products with `I` (1 or -1) are exact.
-/

namespace Kep3
open Real

/-- `std::sqrt(x * x + y * y)`, src/core_astro/eq2par2eq.cpp:26-27. -/
noncomputable def hypD (A : LibmT) (x y : ℝ) : ℝ := A.rd √(A.rd (A.rd (x * x) + A.rd (y * y)))

/-- `om` into one turn, src/core_astro/eq2par2eq.cpp:41-45; `pi` is a double, include/kep3/core_astro/constants.hpp:25. -/
noncomputable def wrapBothD (A : LibmT) (om : ℝ) : ℝ :=
  if om < 0 then A.rd (om + A.rd (2 * A.rd π)) else if A.rd (2 * A.rd π) < om then A.rd (om - A.rd (2 * A.rd π)) else om

/-- `eq2par`, src/core_astro/eq2par2eq.cpp:19-48; `half_pi` is a double, include/kep3/core_astro/constants.hpp:26. -/
noncomputable def eq2parD (A : LibmT) (q : Meq) (retrograde : Bool) : Option Par := do
  let I := sgnI retrograde
  let ecc := hypD A q.f q.g
  let tmp := hypD A q.h q.k
  let gs ← A.div? q.g ecc
  let gc ← A.div? q.f ecc
  let zita := wrapNegD A.toLibm (A.atan2 gs gc)
  let a ← A.div? q.p (A.rd (1 - A.rd (ecc * ecc)))
  let inc := A.rd (A.rd (A.rd (π / 2) * (1 - I)) + A.rd (2 * I * A.atan tmp))
  let ks ← A.div? q.k tmp
  let kc ← A.div? q.h tmp
  let Om := wrapNegD A.toLibm (A.atan2 ks kc)
  let om := wrapBothD A (A.rd (zita - I * Om))
  return ⟨a, ecc, inc, Om, om, A.rd (A.rd (q.L - I * Om) - om)⟩

/-- `par2eq`, src/core_astro/eq2par2eq.cpp:50-68. -/
noncomputable def par2eqD (A : LibmT) (q : Par) (retrograde : Bool) : Option Meq := do
  let I := sgnI retrograde
  let t := A.tan (A.rd (q.i / 2))
  let t ← if retrograde then A.div? 1 t else some t
  let arg := A.rd (q.om + I * q.Om)
  return ⟨A.rd (q.a * A.rd (1 - A.rd (q.e * q.e))), A.rd (q.e * A.cos arg), A.rd (q.e * A.sin arg),
    A.rd (t * A.cos q.Om), A.rd (t * A.sin q.Om), A.rd (A.rd (q.f + q.om) + I * q.Om)⟩

/-- Without rounding `eq2parD` is `eq2par`. -/
theorem eq2parD_exact (q : Meq) (b : Bool) : eq2parD .exact q b = eq2par q b := by
  unfold eq2parD eq2par hypD wrapBothD wrapNegD wrapNeg Arith.div? LibmT.exact Libm.exact Arith.exact
  simp only [id, Option.map_id_fun]

/-- Without rounding `par2eqD` is `par2eq`, away from the poles of the tangent. -/
theorem par2eqD_exact (q : Par) (b : Bool) (h : cos (q.i / 2) ≠ 0) : par2eqD .exact q b = par2eq q b := by
  unfold par2eqD par2eq Arith.div? LibmT.exact Libm.exact Arith.exact tan?
  simp only [id, Option.map_id_fun, if_neg h, Option.bind_eq_bind, Option.bind_some]

end Kep3
