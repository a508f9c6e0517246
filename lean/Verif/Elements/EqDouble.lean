import Verif.Elements.Props85
import Verif.Lagr.UDouble

/-!
# Equinoctial elements in double precision

`src/core_astro/ic2eq2ic.cpp` with every operation rounded. The mathematical library and BLAS are parameters. Each element is an
`Option`: `none` is NaN or infinity. Products by `I`, which is 1 or -1, and by 2 are exact in doubles and not rounded. Not modelled:
overflow, underflow, and contraction of products and sums into fused operations.
-/

namespace Kep3
open Real V3 Fl

/-- The elements, each a number or not. -/
structure MeqD where
  p : Option ℝ
  f : Option ℝ
  g : Option ℝ
  h : Option ℝ
  k : Option ℝ
  L : Option ℝ

/-- All of the elements, if they are numbers. -/
def MeqD.collect (q : MeqD) : Option Meq := do
  return ⟨← q.p, ← q.f, ← q.g, ← q.h, ← q.k, ← q.L⟩

/-- `den`, src/core_astro/ic2eq2ic.cpp:64, 128. -/
noncomputable def eqDenD (A : Arith) (h k : ℝ) : ℝ := A.rd (A.rd (A.rd (k * k) + A.rd (h * h)) + 1)

/-- `fv`, src/core_astro/ic2eq2ic.cpp:65-67, 129-131. -/
noncomputable def eqFD (A : Arith) (I h k : ℝ) : V3 ℝ :=
  ⟨A.rd (A.rd (A.rd (1 - A.rd (k * k)) + A.rd (h * h)) / eqDenD A h k), A.rd (A.rd (2 * k * h) / eqDenD A h k),
    A.rd (-2 * I * k / eqDenD A h k)⟩

/-- `gv`, src/core_astro/ic2eq2ic.cpp:69-71, 133-135. -/
noncomputable def eqGD (A : Arith) (I h k : ℝ) : V3 ℝ :=
  ⟨A.rd (A.rd (2 * I * k * h) / eqDenD A h k), A.rd (A.rd (A.rd (1 + A.rd (k * k)) - A.rd (h * h)) * I / eqDenD A h k),
    A.rd (2 * h / eqDenD A h k)⟩

/-- `a * b - c * d`. -/
noncomputable def det2D (A : Arith) (a b c d : ℝ) : ℝ := A.rd (A.rd (a * b) - A.rd (c * d))

open Classical in
/-- `X`, `Y`, src/core_astro/ic2eq2ic.cpp:84-99. -/
noncomputable def eqXYD (A : Arith) (fv gv r : V3 ℝ) : Option (ℝ × ℝ) :=
  let det1 := det2D A gv.y fv.x fv.y gv.x
  let det2 := det2D A gv.z fv.x fv.z gv.x
  let det3 := det2D A gv.z fv.y fv.z gv.y
  let m := max |det1| (max |det2| |det3|)
  if |det1| = m then do
    let X ← A.div? (det2D A gv.y r.x gv.x r.y) det1
    let Y ← A.div? (A.rd (A.rd (-fv.y * r.x) + A.rd (fv.x * r.y))) det1
    return (X, Y)
  else if |det2| = m then do
    let X ← A.div? (det2D A gv.z r.x gv.x r.z) det2
    let Y ← A.div? (A.rd (A.rd (-fv.z * r.x) + A.rd (fv.x * r.z))) det2
    return (X, Y)
  else do
    let X ← A.div? (det2D A gv.z r.y gv.y r.z) det3
    let Y ← A.div? (A.rd (A.rd (-fv.z * r.y) + A.rd (fv.y * r.z))) det3
    return (X, Y)

/-- The semi-major axis, src/core_astro/ic2eq2ic.cpp:54-56. -/
noncomputable def smaD (A : Arith) (B : Blas) (x : RV ℝ) (mu : ℝ) : Option ℝ := do
  let t1 ← A.div? 2 (B.norm x.r)
  let t2 ← A.div? (A.rd (B.norm x.v * B.norm x.v)) mu
  A.div? 1 (A.rd (t1 - t2))

/-- The unit vector along the angular momentum, src/core_astro/ic2eq2ic.cpp:59-60. -/
noncomputable def wUnitD (A : Arith) (B : Blas) (x : RV ℝ) : Option (V3 ℝ) := A.vdiv? (angMomD A x) (B.norm (angMomD A x))

/-- `h` and `k`, src/core_astro/ic2eq2ic.cpp:62-63. -/
noncomputable def hkD (A : Arith) (B : Blas) (x : RV ℝ) (I : ℝ) : Option (ℝ × ℝ) := do
  let w ← wUnitD A B x
  let k ← A.div? w.x (A.rd (1 + I * w.z))
  let h ← A.div? (-w.y) (A.rd (1 + I * w.z))
  return (h, k)

/-- `ic2eq`, src/core_astro/ic2eq2ic.cpp:33-106. -/
noncomputable def ic2eqD (A : Libm) (B : Blas) (x : RV ℝ) (mu : ℝ) (retrograde : Bool) : MeqD where
  p := do
    let sma ← smaD A.toArith B x mu
    let ev ← eccVecD A.toArith B x mu
    return A.rd (sma * A.rd (1 - A.rd (B.norm ev * B.norm ev)))
  f := do
    let hk ← hkD A.toArith B x (sgnI retrograde)
    let ev ← eccVecD A.toArith B x mu
    return B.dot ev (eqFD A.toArith (sgnI retrograde) hk.1 hk.2)
  g := do
    let hk ← hkD A.toArith B x (sgnI retrograde)
    let ev ← eccVecD A.toArith B x mu
    return B.dot ev (eqGD A.toArith (sgnI retrograde) hk.1 hk.2)
  h := do
    let hk ← hkD A.toArith B x (sgnI retrograde)
    return hk.1
  k := do
    let hk ← hkD A.toArith B x (sgnI retrograde)
    return hk.2
  L := do
    let hk ← hkD A.toArith B x (sgnI retrograde)
    let XY ← eqXYD A.toArith (eqFD A.toArith (sgnI retrograde) hk.1 hk.2) (eqGD A.toArith (sgnI retrograde) hk.1 hk.2) x.r
    let yr ← A.div? XY.2 (B.norm x.r)
    let xr ← A.div? XY.1 (B.norm x.r)
    return A.atan2 yr xr

/-- `eq2ic`, src/core_astro/ic2eq2ic.cpp:108-155. -/
noncomputable def eq2icD (A : Libm) (q : Meq) (mu : ℝ) (retrograde : Bool) : Option (RV ℝ) := do
  let I := sgnI retrograde
  let par := |q.p|
  let fv := eqFD A.toArith I q.h q.k
  let gv := eqGD A.toArith I q.h q.k
  let radius ← A.div? par (A.rd (A.rd (1 + A.rd (q.g * A.sin q.L)) + A.rd (q.f * A.cos q.L)))
  let mp ← A.div? mu par
  let s ← A.sqrt? mp
  let X := A.rd (radius * A.cos q.L)
  let Y := A.rd (radius * A.sin q.L)
  let VX := A.rd (-s * A.rd (q.g + A.sin q.L))
  let VY := A.rd (s * A.rd (q.f + A.cos q.L))
  let comb := fun X Y a b : ℝ => A.rd (A.rd (X * a) + A.rd (Y * b))
  return ⟨⟨comb X Y fv.x gv.x, comb X Y fv.y gv.y, comb X Y fv.z gv.z⟩,
    ⟨comb VX VY fv.x gv.x, comb VX VY fv.y gv.y, comb VX VY fv.z gv.z⟩⟩

/-! ## Without rounding -/

section Exact

theorem eqFD_exact (I h k : ℝ) : eqFD Arith.exact I h k = eqF I h k := rfl
theorem eqGD_exact (I h k : ℝ) : eqGD Arith.exact I h k = eqG I h k := rfl

theorem divX (a b : ℝ) : Arith.exact.div? a b = div? a b := by unfold Arith.div? Arith.exact; simp

theorem eqXYD_exact (fv gv r : V3 ℝ) : eqXYD Arith.exact fv gv r = eqXY fv gv r := by
  unfold eqXYD eqXY det2D
  simp only [divX]
  rfl

/-- Without rounding this is the model of `Verif/Elements/Model.lean`. -/
theorem ic2eqD_exact (x : RV ℝ) (mu : ℝ) (b : Bool) : (ic2eqD Libm.exact Blas.exact x mu b).collect = ic2eq x mu b := by
  have hc : ∀ a b : V3 ℝ, Arith.exact.cross a b = V3.cross a b := fun a b => rfl
  have hv : ∀ (v : V3 ℝ) c, Arith.exact.vdiv? v c = vdiv? v c := fun v c => rfl
  have hs : ∀ a b : V3 ℝ, Arith.exact.sub a b = a - b := fun a b => rfl
  have hr : ∀ t : ℝ, Arith.exact.rd t = t := fun t => rfl
  have hL : Libm.exact.toArith = Arith.exact := rfl
  have h2 : Libm.exact.atan2 = atan2 := rfl
  unfold MeqD.collect ic2eqD hkD wUnitD smaD eccVecD angMomD ic2eq
  simp only [hL, hc, hv, divX, hs, hr, h2, Blas.exact, eqFD_exact, eqGD_exact, eqXYD_exact]
  generalize vdiv? (V3.cross x.r x.v) (V3.norm (V3.cross x.r x.v)) = w
  generalize vdiv? (V3.cross x.v (V3.cross x.r x.v)) mu = vh
  generalize vdiv? x.r (V3.norm x.r) = ru
  generalize div? 2 (V3.norm x.r) = t1
  generalize div? (V3.norm x.v * V3.norm x.v) mu = t2
  rcases t1 with _ | t1
  · rfl
  rcases t2 with _ | t2
  · rfl
  simp only [Option.bind_eq_bind, Option.bind_some, Option.pure_def]
  generalize div? 1 (t1 - t2) = sma
  rcases sma with _ | sma
  · rfl
  rcases w with _ | w
  · rcases vh with _ | vh <;> rcases ru with _ | ru <;> simp
  simp only [Option.bind_some]
  generalize div? w.x (1 + sgnI b * w.z) = k
  generalize div? (-w.y) (1 + sgnI b * w.z) = h
  rcases k with _ | k
  · rcases vh with _ | vh <;> rcases ru with _ | ru <;> simp
  rcases h with _ | h
  · rcases vh with _ | vh <;> rcases ru with _ | ru <;> simp
  rcases vh with _ | vh
  · rfl
  rcases ru with _ | ru
  · rfl
  simp only [Option.bind_some]
  generalize eqXY (eqF (sgnI b) h k) (eqG (sgnI b) h k) x.r = XY
  rcases XY with _ | XY
  · rfl
  simp only [Option.bind_some]
  generalize div? XY.2 (V3.norm x.r) = yr
  generalize div? XY.1 (V3.norm x.r) = xr
  rcases yr with _ | yr <;> rcases xr with _ | xr <;> rfl

/-- Without rounding this is the model of `Verif/Elements/Model.lean`. -/
theorem eq2icD_exact (q : Meq) (mu : ℝ) (b : Bool) : eq2icD Libm.exact q mu b = eq2ic q mu b := by
  have hr : ∀ t : ℝ, Arith.exact.rd t = t := fun t => rfl
  have hL : Libm.exact.toArith = Arith.exact := rfl
  have hq : ∀ a : ℝ, Arith.exact.sqrt? a = sqrt? a := fun a => by unfold Arith.sqrt? Arith.exact; simp
  have h1 : Libm.exact.sin = Real.sin := rfl
  have h2 : Arith.exact.cos = Real.cos := rfl
  unfold eq2icD eq2ic
  simp only [hL, hr, divX, hq, h1, h2, eqFD_exact, eqGD_exact]

end Exact

end Kep3
