import Verif.Lagr.UDouble

/-!
# `include/kep3/core_astro/convert_anomalies.hpp` in double precision

Every operation rounded. `none` is NaN or infinity. The mathematical library and the root finder are parameters. Not modelled: overflow,
underflow, and contraction of products and sums into fused operations.
-/

namespace Kep3
open Real Fl

/-- More functions of the mathematical library. -/
structure LibmT extends Libm where
  /-- `std::tan`. -/
  tan : ℝ → ℝ
  /-- `std::atan`. -/
  atan : ℝ → ℝ
  /-- `std::tanh`. -/
  tanh : ℝ → ℝ
  /-- `std::atanh` on (-1, 1). -/
  atanh : ℝ → ℝ

/-- A library without rounding. -/
noncomputable def LibmT.exact : LibmT := ⟨Libm.exact, Real.tan, arctan, Real.tanh, artanh⟩

/-- `std::atanh`: infinite or NaN outside of (-1, 1). -/
noncomputable def LibmT.atanh? (A : LibmT) (x : ℝ) : Option ℝ := if -1 < x ∧ x < 1 then some (A.atanh x) else none

/-- `kepE`, include/kep3/core_astro/kepler_equations.hpp:21-24. -/
noncomputable def kepED (A : LibmT) (E M ecc : ℝ) : ℝ := A.rd (A.rd (E - A.rd (ecc * A.sin E)) - M)

/-- `d_kepE`, include/kep3/core_astro/kepler_equations.hpp:26-29. -/
noncomputable def d_kepED (A : LibmT) (E ecc : ℝ) : ℝ := A.rd (1 - A.rd (ecc * A.cos E))

/-- `kepH`, include/kep3/core_astro/kepler_equations.hpp:39-42. -/
noncomputable def kepHD (A : LibmT) (H M ecc : ℝ) : ℝ := A.rd (A.rd (A.rd (ecc * A.sinh H) - H) - M)

/-- `d_kepH`, include/kep3/core_astro/kepler_equations.hpp:44-47. -/
noncomputable def d_kepHD (A : LibmT) (H ecc : ℝ) : ℝ := A.rd (A.rd (ecc * A.cosh H) - 1)

/-- The initial guess of `m2e`, include/kep3/core_astro/convert_anomalies.hpp:44. -/
noncomputable def igED (A : LibmT) (Mc sinM cosM ecc : ℝ) : ℝ :=
  A.rd (A.rd (A.rd (Mc + A.rd (ecc * sinM)) + A.rd (A.rd (A.rd (ecc * ecc) * sinM) * cosM))
    + A.rd (A.rd (A.rd (A.rd (ecc * ecc) * ecc) * sinM) * A.rd (A.rd (A.rd (3 / 2 * cosM) * cosM) - 1 / 2)))

/-- `m2e`, include/kep3/core_astro/convert_anomalies.hpp:29-59. -/
noncomputable def m2eD (A : LibmT) (sv : SolverD) (M ecc : ℝ) : Res (Option ℝ) :=
  if 1 ≤ ecc then .ok none
  else
    let sinM := A.sin M
    let cosM := A.cos M
    let Mc := A.atan2 sinM cosM
    let IG := igED A Mc sinM cosM ecc
    let s := sv (fun E => some (kepED A E Mc ecc, d_kepED A E ecc)) IG (A.rd (IG - A.rd π)) (A.rd (IG + A.rd π))
    if s.2 = 100 then .err .domainError else .ok (some s.1)

/-- `e2m`, include/kep3/core_astro/convert_anomalies.hpp:61-67. -/
noncomputable def e2mD (A : LibmT) (E ecc : ℝ) : Option ℝ :=
  if 1 ≤ ecc then none else some (A.rd (E - A.rd (ecc * A.sin E)))

/-- `e2f`, include/kep3/core_astro/convert_anomalies.hpp:70-76. -/
noncomputable def e2fD (A : LibmT) (E ecc : ℝ) : Option ℝ :=
  if 1 ≤ ecc then none
  else do
    let q ← A.div? (A.rd (1 + ecc)) (A.rd (1 - ecc))
    let s ← A.sqrt? q
    return A.rd (2 * A.atan (A.rd (s * A.tan (A.rd (E / 2)))))

/-- `f2e`, include/kep3/core_astro/convert_anomalies.hpp:79-85. -/
noncomputable def f2eD (A : LibmT) (f ecc : ℝ) : Option ℝ :=
  if 1 ≤ ecc then none
  else do
    let q ← A.div? (A.rd (1 - ecc)) (A.rd (1 + ecc))
    let s ← A.sqrt? q
    return A.rd (2 * A.atan (A.rd (s * A.tan (A.rd (f / 2)))))

/-- `m2f`, include/kep3/core_astro/convert_anomalies.hpp:88-94. -/
noncomputable def m2fD (A : LibmT) (sv : SolverD) (M ecc : ℝ) : Res (Option ℝ) :=
  if 1 ≤ ecc then .ok none
  else do
    let E ← m2eD A sv M ecc
    return E.bind fun E => e2fD A E ecc

/-- `f2m`, include/kep3/core_astro/convert_anomalies.hpp:97-103. -/
noncomputable def f2mD (A : LibmT) (f ecc : ℝ) : Option ℝ :=
  if 1 ≤ ecc then none else (f2eD A f ecc).bind fun E => e2mD A E ecc

/-- `zeta2f`, include/kep3/core_astro/convert_anomalies.hpp:106-112. -/
noncomputable def zeta2fD (A : LibmT) (z ecc : ℝ) : Option ℝ :=
  if ecc ≤ 1 then none
  else do
    let q ← A.div? (A.rd (1 + ecc)) (A.rd (ecc - 1))
    let s ← A.sqrt? q
    return A.rd (2 * A.atan (A.rd (s * A.tan (A.rd (z / 2)))))

/-- `f2zeta`, include/kep3/core_astro/convert_anomalies.hpp:115-121. -/
noncomputable def f2zetaD (A : LibmT) (f ecc : ℝ) : Option ℝ :=
  if ecc ≤ 1 then none
  else do
    let q ← A.div? (A.rd (ecc - 1)) (A.rd (1 + ecc))
    let s ← A.sqrt? q
    return A.rd (2 * A.atan (A.rd (s * A.tan (A.rd (f / 2)))))

/-- `n2h`, include/kep3/core_astro/convert_anomalies.hpp:125-145. -/
noncomputable def n2hD (A : LibmT) (sv : SolverD) (N ecc : ℝ) : Res (Option ℝ) :=
  if ecc ≤ 1 then .ok none
  else
    let s := sv (fun H => some (kepHD A H N ecc, d_kepHD A H ecc)) 1 (A.rd (1 - A.rd (20 * A.rd π))) (A.rd (1 + A.rd (20 * A.rd π)))
    if s.2 = 100 then .err .domainError else .ok (some s.1)

/-- `h2n`, include/kep3/core_astro/convert_anomalies.hpp:148-154. -/
noncomputable def h2nD (A : LibmT) (H ecc : ℝ) : Option ℝ :=
  if ecc ≤ 1 then none else some (A.rd (A.rd (ecc * A.sinh H) - H))

/-- `h2f`, include/kep3/core_astro/convert_anomalies.hpp:157-163. -/
noncomputable def h2fD (A : LibmT) (H ecc : ℝ) : Option ℝ :=
  if ecc ≤ 1 then none
  else do
    let q ← A.div? (A.rd (1 + ecc)) (A.rd (ecc - 1))
    let s ← A.sqrt? q
    return A.rd (2 * A.atan (A.rd (s * A.tanh (A.rd (H / 2)))))

/-- `f2h`, include/kep3/core_astro/convert_anomalies.hpp:166-172. -/
noncomputable def f2hD (A : LibmT) (f ecc : ℝ) : Option ℝ :=
  if ecc ≤ 1 then none
  else do
    let q ← A.div? (A.rd (ecc - 1)) (A.rd (1 + ecc))
    let s ← A.sqrt? q
    let y ← A.atanh? (A.rd (s * A.tan (A.rd (f / 2))))
    return A.rd (2 * y)

/-- `n2f`, include/kep3/core_astro/convert_anomalies.hpp:175-181. -/
noncomputable def n2fD (A : LibmT) (sv : SolverD) (N ecc : ℝ) : Res (Option ℝ) :=
  if ecc ≤ 1 then .ok none
  else do
    let H ← n2hD A sv N ecc
    return H.bind fun H => h2fD A H ecc

/-- `f2n`, include/kep3/core_astro/convert_anomalies.hpp:184-190. -/
noncomputable def f2nD (A : LibmT) (f ecc : ℝ) : Option ℝ :=
  if ecc ≤ 1 then none else (f2hD A f ecc).bind fun H => h2nD A H ecc

/-! ## Without rounding these are the conversions in exact arithmetic -/

section
private theorem ex_rd (t : ℝ) : LibmT.exact.rd t = t := rfl
private theorem ex_div (a b : ℝ) : LibmT.exact.div? a b = div? a b := by simp [Arith.div?, LibmT.exact, Libm.exact, Arith.exact]
private theorem ex_sqrt (a : ℝ) : LibmT.exact.sqrt? a = sqrt? a := by simp [Arith.sqrt?, LibmT.exact, Libm.exact, Arith.exact]
private theorem ex_sin (a : ℝ) : LibmT.exact.sin a = Real.sin a := rfl
private theorem ex_cos (a : ℝ) : LibmT.exact.cos a = Real.cos a := rfl
private theorem ex_sinh (a : ℝ) : LibmT.exact.sinh a = Real.sinh a := rfl
private theorem ex_cosh (a : ℝ) : LibmT.exact.cosh a = Real.cosh a := rfl
private theorem ex_tan (a : ℝ) : LibmT.exact.tan a = Real.tan a := rfl
private theorem ex_atan (a : ℝ) : LibmT.exact.atan a = arctan a := rfl
private theorem ex_tanh (a : ℝ) : LibmT.exact.tanh a = Real.tanh a := rfl
private theorem ex_atanh (a : ℝ) : LibmT.exact.atanh? a = atanh? a := rfl
private theorem ex_atan2 (a b : ℝ) : LibmT.exact.atan2 a b = atan2 a b := rfl

/-- **The model with rounding refines the model without.** -/
theorem anomaliesD_exact {x : ℝ} (ecc : ℝ) (hx : cos (x / 2) ≠ 0) :
    e2fD .exact x ecc = e2f x ecc ∧ f2eD .exact x ecc = f2e x ecc ∧ e2mD .exact x ecc = e2m x ecc ∧ f2mD .exact x ecc = f2m x ecc ∧
    zeta2fD .exact x ecc = zeta2f x ecc ∧ f2zetaD .exact x ecc = f2zeta x ecc ∧ h2fD .exact x ecc = h2f x ecc ∧
    f2hD .exact x ecc = f2h x ecc ∧ h2nD .exact x ecc = h2n x ecc ∧ f2nD .exact x ecc = f2n x ecc := by
  have ht : tan? (x / 2) = some (Real.tan (x / 2)) := if_neg hx
  have a1 : f2eD .exact x ecc = f2e x ecc := by
    unfold f2eD f2e; simp only [ex_rd, ex_div, ex_sqrt, ex_tan, ex_atan, ht, Option.bind_eq_bind, Option.bind_some]
  have a2 : ∀ y, e2mD .exact y ecc = e2m y ecc := fun y => rfl
  have a3 : f2hD .exact x ecc = f2h x ecc := by
    unfold f2hD f2h; simp only [ex_rd, ex_div, ex_sqrt, ex_tan, ex_atanh, ht, Option.bind_eq_bind, Option.bind_some]
  have a4 : ∀ y, h2nD .exact y ecc = h2n y ecc := fun y => rfl
  refine ⟨?_, a1, a2 x, ?_, ?_, ?_, ?_, a3, a4 x, ?_⟩
  · unfold e2fD e2f; simp only [ex_rd, ex_div, ex_sqrt, ex_tan, ex_atan, ht, Option.bind_eq_bind, Option.bind_some]
  · unfold f2mD f2m; simp only [a1, a2]
  · unfold zeta2fD zeta2f; simp only [ex_rd, ex_div, ex_sqrt, ex_tan, ex_atan, ht, Option.bind_eq_bind, Option.bind_some]
  · unfold f2zetaD f2zeta; simp only [ex_rd, ex_div, ex_sqrt, ex_tan, ex_atan, ht, Option.bind_eq_bind, Option.bind_some]
  · unfold h2fD h2f; simp only [ex_rd, ex_div, ex_sqrt, ex_tanh, ex_atan]
  · unfold f2nD f2n; simp only [a3, a4]

/-- The same for the conversions that solve Kepler's equation. -/
theorem keplerD_exact {sv : SolverD} {sw : Solver} (hs : ∀ f g lo hi, sv (fun t => some (f t)) g lo hi = sw f g lo hi) (M ecc : ℝ) :
    m2eD .exact sv M ecc = m2e sw M ecc ∧ n2hD .exact sv M ecc = n2h sw M ecc := by
  constructor
  · unfold m2eD m2e igED kepED d_kepED kepE d_kepE
    simp only [ex_rd, ex_sin, ex_cos, ex_atan2, hs]
  · unfold n2hD n2h kepHD d_kepHD kepH d_kepH
    simp only [ex_rd, ex_sinh, ex_cosh, hs]

end
end Kep3
