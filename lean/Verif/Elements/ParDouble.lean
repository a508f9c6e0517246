import Verif.Elements.EqDouble

/-!
# `par2ic` in double precision

`src/core_astro/ic2par2ic.cpp:98-159` with every operation rounded. The mathematical library and BLAS are parameters; a component of a
product of a matrix and a vector is a scalar product of BLAS. `none` is NaN or infinity. Not modelled: overflow, underflow, and contraction
of products and sums into fused operations.
-/

namespace Kep3
open Real V3 Fl

/-- The rows of a matrix. -/
structure Rows where
  x : V3 ℝ
  y : V3 ℝ
  z : V3 ℝ

/-- The rotation matrix, src/core_astro/ic2par2ic.cpp:136-147. -/
noncomputable def rotD (A : Libm) (i Om om : ℝ) : Rows :=
  let co := A.cos Om
  let cp := A.cos om
  let so := A.sin Om
  let sp := A.sin om
  let ci := A.cos i
  let si := A.sin i
  { x := ⟨A.rd (A.rd (co * cp) - A.rd (A.rd (so * sp) * ci)), A.rd (A.rd (-co * sp) - A.rd (A.rd (so * cp) * ci)), A.rd (so * si)⟩
    y := ⟨A.rd (A.rd (so * cp) + A.rd (A.rd (co * sp) * ci)), A.rd (A.rd (-so * sp) + A.rd (A.rd (co * cp) * ci)), A.rd (-co * si)⟩
    z := ⟨A.rd (sp * si), A.rd (cp * si), ci⟩ }

/-- `xt::linalg::dot` of a matrix and a vector, src/core_astro/ic2par2ic.cpp:155-156. -/
noncomputable def Rows.mul (B : Blas) (R : Rows) (v : V3 ℝ) : V3 ℝ := ⟨B.dot R.x v, B.dot R.y v, B.dot R.z v⟩

/-- The position and the velocity in the perifocal frame, src/core_astro/ic2par2ic.cpp:127-134. -/
noncomputable def perifocalD (A : Libm) (q : Par) (mu : ℝ) : Option (RV ℝ) := do
  let cosf := A.cos q.f
  let p := A.rd (q.a * A.rd (1 - A.rd (q.e * q.e)))
  let r ← A.div? p (A.rd (1 + A.rd (q.e * cosf)))
  let h ← A.sqrt? (A.rd (p * mu))
  let sinf := A.sin q.f
  let mh ← A.div? mu h
  return ⟨⟨A.rd (r * cosf), A.rd (r * sinf), 0⟩, ⟨A.rd (-mh * sinf), A.rd (mh * A.rd (q.e + cosf)), 0⟩⟩

open Classical in
/-- `par2ic`, src/core_astro/ic2par2ic.cpp:98-159. -/
noncomputable def par2icD (A : Libm) (B : Blas) (q : Par) (mu : ℝ) : Res (Option (RV ℝ)) :=
  if A.rd (q.a * A.rd (1 - q.e)) < 0 then .err .domainError
  else if 1 < q.e ∧ A.cos q.f < A.rd (-1 / q.e) then .err .domainError
  else .ok ((perifocalD A q mu).map fun x => ⟨(rotD A q.i q.Om q.om).mul B x.r, (rotD A q.i q.Om q.om).mul B x.v⟩)

/-- Without rounding this is the model of `Verif/Elements/Model.lean`. -/
theorem par2icD_exact (q : Par) (mu : ℝ) : par2icD Libm.exact Blas.exact q mu = par2ic q mu := by
  have hr : ∀ t : ℝ, Arith.exact.rd t = t := fun t => rfl
  have hL : Libm.exact.toArith = Arith.exact := rfl
  have hq : ∀ a : ℝ, Arith.exact.sqrt? a = sqrt? a := fun a => by unfold Arith.sqrt? Arith.exact; simp
  have h1 : Libm.exact.sin = Real.sin := rfl
  have h2 : Arith.exact.cos = Real.cos := rfl
  unfold par2icD par2ic
  simp only [hL, hr, h2]
  split_ifs
  · rfl
  · rfl
  congr 1
  unfold perifocalD rotD Rows.mul
  simp only [hL, hr, h2, h1, divX, hq, Blas.exact, V3.dot]
  rcases div? (q.a * (1 - q.e * q.e)) (1 + q.e * cos q.f) with _ | r
  · rfl
  rcases sqrt? (q.a * (1 - q.e * q.e) * mu) with _ | h
  · rfl
  simp only [Option.bind_eq_bind, Option.bind_some]
  rcases div? mu h with _ | m
  · rfl
  simp only [Option.bind_some, Option.pure_def, Option.map_some, colP, colQ, mul_zero, add_zero]

end Kep3
