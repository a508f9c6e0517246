import Verif.Lagr.Model

/-!
# The state transition matrix computed with the Lagrange coefficients

`src/core_astro/stm.cpp:46-135`, exact real arithmetic. A `mat16` (gradient of a scalar with respect to the six initial
coordinates) is a `Row`. `sqrta^5` is `std::pow(sqrta, 5)`. The divisors are `R0`, `Rf`, `energy`, `a`, `sqrta`, `mu` and
the derivative of Kepler's equation, which the theorems show to be non-zero whenever coefficients were returned.
-/

namespace Kep3
open Real

/-- `mat16`, include/kep3/linalg.hpp:18-29. -/
abbrev Row := Fin 6 → ℝ

/-- The seed `dr0`, src/core_astro/stm.cpp:60, 62-64. -/
def seedR (i : Fin 3) : Row := fun j => if j.val = i.val then 1 else 0
/-- The seed `dv0`, src/core_astro/stm.cpp:61, 65-67. -/
def seedV (i : Fin 3) : Row := fun j => if j.val = i.val + 3 then 1 else 0

/-- `_dot` of a row vector with a 3x6 matrix, include/kep3/linalg.hpp:31-47. -/
def dotRow (v : V3 ℝ) (m : Fin 3 → Row) : Row := fun j => v.x * m 0 j + v.y * m 1 j + v.z * m 2 j

/-- The component of a vector with a given index. -/
def V3.get (v : V3 ℝ) : Fin 3 → ℝ := ![v.x, v.y, v.z]

/-- A row of the assembly: `F * dr0 + r0^T dF + G * dv0 + v0^T dG`, src/core_astro/stm.cpp:126-127. -/
def stmRows (x : RV ℝ) (F G : ℝ) (dF dG : Row) (i : Fin 3) : Row :=
  fun j => F * seedR i j + x.r.get i * dF j + G * seedV i j + x.v.get i * dG j

/-- `dV02`, src/core_astro/stm.cpp:72. -/
def stmDV02 (x : RV ℝ) : Row := fun j => 2 * dotRow x.v seedV j
/-- `dR0`, src/core_astro/stm.cpp:73. -/
noncomputable def stmDR0 (x : RV ℝ) (R0 : ℝ) : Row := fun j => 1 / R0 * dotRow x.r seedR j
/-- `denergy`, src/core_astro/stm.cpp:74. -/
noncomputable def stmDEnergy (x : RV ℝ) (mu R0 : ℝ) : Row :=
  fun j => (1 / 2 : ℝ) * stmDV02 x j + mu / R0 / R0 * stmDR0 x R0 j
/-- `dsigma0`, src/core_astro/stm.cpp:75. -/
noncomputable def stmDSigma0 (x : RV ℝ) (mu : ℝ) : Row := fun j => (dotRow x.r seedV j + dotRow x.v seedR j) / √mu
/-- `da`, src/core_astro/stm.cpp:76. -/
noncomputable def stmDa (x : RV ℝ) (mu R0 energy : ℝ) : Row :=
  fun j => mu / 2 / energy / energy * stmDEnergy x mu R0 j

/-- The differentials of the Lagrange coefficients. -/
structure DCoeff where
  dF : Row
  dG : Row
  dFt : Row
  dGt : Row

/-- `dDE`, src/core_astro/stm.cpp:80-87. -/
noncomputable def stmDDE (tof mu R0 sigma0 a s0 c0 DE : ℝ) (dR0 dsigma0 da : Row) : Row :=
  let sqrta := √a
  let ds0 : Row := fun j => dsigma0 j / sqrta - (1 / 2 : ℝ) * sigma0 / sqrta / sqrta / sqrta * da j
  let dc0 : Row := fun j => -1 / a * dR0 j + R0 / a / a * da j
  let dDM : Row := fun j => -(3 / 2 : ℝ) * √mu * tof / sqrta ^ 5 * da j
  fun j => (dDM j - (1 - cos DE) * ds0 j + sin DE * dc0 j) / (1 + s0 * sin DE - c0 * cos DE)

/-- The differentials for ellipses, from the differentials of `R0`, `sigma0`, `a` and `DE`,
src/core_astro/stm.cpp:80-82, 88-100. -/
noncomputable def stmDiffE (mu R0 Rf sigma0 a DE F : ℝ) (dR0 dsigma0 da dDE : Row) : DCoeff :=
  let sqrta := √a
  let dRf : Row := fun j => (1 - cos DE + (1 / 2 : ℝ) / sqrta * sigma0 * sin DE) * da j + cos DE * dR0 j
    + (sigma0 * sqrta * cos DE - (R0 - a) * sin DE) * dDE j + sqrta * sin DE * dsigma0 j
  let dF : Row := fun j => -(1 - cos DE) / R0 * da j + a / R0 / R0 * (1 - cos DE) * dR0 j - a / R0 * sin DE * dDE j
  let dG : Row := fun j => ((1 - F) * (R0 * dsigma0 j + sigma0 * dR0 j) - (sigma0 * R0) * dF j
    + (sqrta * R0 * cos DE) * dDE j + (sqrta * sin DE) * dR0 j + ((1 / 2 : ℝ) * R0 * sin DE / sqrta) * da j) / √mu
  let dFt : Row := fun j => ((-sqrta / R0 / Rf * cos DE) * dDE j - ((1 / 2 : ℝ) / sqrta / R0 / Rf * sin DE) * da j
    + (sqrta / Rf / R0 / R0 * sin DE) * dR0 j + (sqrta / Rf / Rf / R0 * sin DE) * dRf j) * √mu
  let dGt : Row := fun j => -(1 - cos DE) / Rf * da j + a / Rf / Rf * (1 - cos DE) * dRf j - a / Rf * sin DE * dDE j
  ⟨dF, dG, dFt, dGt⟩

/-- `dDH`, src/core_astro/stm.cpp:102-109. -/
noncomputable def stmDDH (tof mu R0 sigma0 a s0 c0 DH : ℝ) (dR0 dsigma0 da : Row) : Row :=
  let sqrta := √(-a)
  let ds0 : Row := fun j => dsigma0 j / sqrta + (1 / 2 : ℝ) * sigma0 / sqrta / sqrta / sqrta * da j
  let dc0 : Row := fun j => -1 / a * dR0 j + R0 / a / a * da j
  let dDN : Row := fun j => (3 / 2 : ℝ) * √mu * tof / sqrta ^ 5 * da j
  fun j => (dDN j - (cosh DH - 1) * ds0 j - sinh DH * dc0 j) / (s0 * sinh DH + c0 * cosh DH - 1)

/-- The differentials for hyperbolas, src/core_astro/stm.cpp:102-104, 110-123. -/
noncomputable def stmDiffH (mu R0 Rf sigma0 a DH F : ℝ) (dR0 dsigma0 da dDH : Row) : DCoeff :=
  let sqrta := √(-a)
  let dRf : Row := fun j => (1 - cosh DH - (1 / 2 : ℝ) / sqrta * sigma0 * sinh DH) * da j + cosh DH * dR0 j
    + (sigma0 * sqrta * cosh DH + (R0 - a) * sinh DH) * dDH j + sqrta * sinh DH * dsigma0 j
  let dF : Row := fun j => -(1 - cosh DH) / R0 * da j + a / R0 / R0 * (1 - cosh DH) * dR0 j + a / R0 * sinh DH * dDH j
  let dG : Row := fun j => ((1 - F) * (R0 * dsigma0 j + sigma0 * dR0 j) - (sigma0 * R0) * dF j
    + (sqrta * R0 * cosh DH) * dDH j + (sqrta * sinh DH) * dR0 j - ((1 / 2 : ℝ) * R0 * sinh DH / sqrta) * da j) / √mu
  let dFt : Row := fun j => ((-sqrta / R0 / Rf * cosh DH) * dDH j + ((1 / 2 : ℝ) / sqrta / R0 / Rf * sinh DH) * da j
    + (sqrta / Rf / R0 / R0 * sinh DH) * dR0 j + (sqrta / Rf / Rf / R0 * sinh DH) * dRf j) * √mu
  let dGt : Row := fun j => -(1 - cosh DH) / Rf * da j + a / Rf / Rf * (1 - cosh DH) * dRf j + a / Rf * sinh DH * dDH j
  ⟨dF, dG, dFt, dGt⟩

/-- `stm_lagrangian`, src/core_astro/stm.cpp:46-135, as a 6x6 matrix (row index first); `retval` is its row-major
flattening. -/
noncomputable def stmLagrangian (x : RV ℝ) (tof mu : ℝ) (q : Lagr) : Fin 6 → Row :=
  let dR0 := stmDR0 x q.R0
  let dsigma0 := stmDSigma0 x mu
  let da := stmDa x mu q.R0 q.energy
  let d := if 0 < q.a then stmDiffE mu q.R0 q.Rf q.sigma0 q.a q.DX q.F dR0 dsigma0 da
      (stmDDE tof mu q.R0 q.sigma0 q.a q.s0 q.c0 q.DX dR0 dsigma0 da)
    else stmDiffH mu q.R0 q.Rf q.sigma0 q.a q.DX q.F dR0 dsigma0 da
      (stmDDH tof mu q.R0 q.sigma0 q.a q.s0 q.c0 q.DX dR0 dsigma0 da)
  ![stmRows x q.F q.G d.dF d.dG 0, stmRows x q.F q.G d.dF d.dG 1, stmRows x q.F q.G d.dF d.dG 2,
    stmRows x q.Ft q.Gt d.dFt d.dGt 0, stmRows x q.Ft q.Gt d.dFt d.dGt 1, stmRows x q.Ft q.Gt d.dFt d.dGt 2]

/-- Copying a 6x6 matrix into an array, by rows, src/core_astro/stm.cpp:131-134, 186-188. -/
def flat (m : Fin 6 → Row) (k : Fin 36) : ℝ := m ⟨k.val / 6, by omega⟩ ⟨k.val % 6, by omega⟩

/-- The whole result of `propagate_lagrangian`, src/core_astro/propagate_lagrangian.cpp:36-156: the state, and the state
transition matrix if it is requested (src/core_astro/propagate_lagrangian.cpp:150-155). -/
noncomputable def propagateLagrangianStm (sv : Solver) (x : RV ℝ) (tof mu : ℝ) (stm : Bool) :
    Res (Option (RV ℝ × Option (Fin 36 → ℝ))) := do
  let q ← lagr sv x tof mu
  return q.map fun q => (q.state x,
    if stm then some (flat (stmLagrangian x tof mu q)) else none)

end Kep3
