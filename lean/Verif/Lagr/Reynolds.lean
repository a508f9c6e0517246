import Verif.Lagr.Stm
import Mathlib.Data.Matrix.Mul
import Mathlib.LinearAlgebra.Matrix.Notation
import Mathlib.LinearAlgebra.Matrix.Determinant.Basic

/-!
# The state transition matrix of Reynolds

`src/core_astro/stm.cpp:137-202`, exact real arithmetic. The inversion (`xt::linalg::inv`) is a parameter.
-/

namespace Kep3
open Real Matrix

/-- A six by six matrix. -/
abbrev Mat6 := Matrix (Fin 6) (Fin 6) ℝ

/-- `_skew`, src/linalg.cpp:14-17. -/
def skew (v : V3 ℝ) : Matrix (Fin 3) (Fin 3) ℝ := !![0, -v.z, v.y; v.z, 0, -v.x; -v.y, v.x, 0]

/-- The matrix `B`, src/core_astro/stm.cpp:144-146. -/
noncomputable def reyB (x0 : RV ℝ) (mu : ℝ) : Matrix (Fin 3) (Fin 2) ℝ :=
  let r0_mod := √(x0.r.x * x0.r.x + x0.r.y * x0.r.y + x0.r.z * x0.r.z)
  !![x0.r.x / √(mu * r0_mod), x0.v.x * r0_mod / mu; x0.r.y / √(mu * r0_mod), x0.v.y * r0_mod / mu;
     x0.r.z / √(mu * r0_mod), x0.v.z * r0_mod / mu]

/-- Six by six matrix from its blocks of 3, 2 and 1 columns, upper and lower halves, src/core_astro/stm.cpp:147-149,
152-154, 157-163. -/
def blocks (fct fcb : Matrix (Fin 3) (Fin 3) ℝ) (sct scb : Matrix (Fin 3) (Fin 2) ℝ) (tct tcb : V3 ℝ) : Mat6 :=
  !![fct 0 0, fct 0 1, fct 0 2, sct 0 0, sct 0 1, tct.x;
     fct 1 0, fct 1 1, fct 1 2, sct 1 0, sct 1 1, tct.y;
     fct 2 0, fct 2 1, fct 2 2, sct 2 0, sct 2 1, tct.z;
     fcb 0 0, fcb 0 1, fcb 0 2, scb 0 0, scb 0 1, tcb.x;
     fcb 1 0, fcb 1 1, fcb 1 2, scb 1 0, scb 1 1, tcb.y;
     fcb 2 0, fcb 2 1, fcb 2 2, scb 2 0, scb 2 1, tcb.z]

/-- `_compute_Y`, src/core_astro/stm.cpp:138-165. -/
noncomputable def computeY (x0 y : RV ℝ) (tof mu : ℝ) : Mat6 :=
  let h := V3.cross y.r y.v
  let r_mod := √(y.r.x * y.r.x + y.r.y * y.r.y + y.r.z * y.r.z)
  let r3 := r_mod * r_mod * r_mod
  let B := reyB x0 mu
  let sct := -((skew y.r * skew y.v + skew h) * B)
  let scb := ((mu / r3) • (skew y.r * skew y.r) - skew y.v * skew y.v) * B
  let tct : V3 ℝ := ⟨-y.r.x + (3 / 2 : ℝ) * y.v.x * tof, -y.r.y + (3 / 2 : ℝ) * y.v.y * tof,
    -y.r.z + (3 / 2 : ℝ) * y.v.z * tof⟩
  let tcb : V3 ℝ := ⟨y.v.x / 2 - (3 / 2 : ℝ) * mu / r3 * y.r.x * tof, y.v.y / 2 - (3 / 2 : ℝ) * mu / r3 * y.r.y * tof,
    y.v.z / 2 - (3 / 2 : ℝ) * mu / r3 * y.r.z * tof⟩
  blocks (skew y.r) (skew y.v) sct scb tct tcb

/-- `stm_reynolds`, src/core_astro/stm.cpp:170-189. `none`: the inversion threw. -/
noncomputable def stmReynolds (inv : Mat6 → Option Mat6) (x y : RV ℝ) (tof mu : ℝ) : Option Mat6 := do
  let Y := computeY x y tof mu
  let Y0 := computeY x x 0 mu
  let i ← inv Y0
  return Y * i

/-- What is assumed about `xt::linalg::inv`: it inverts non-singular matrices. -/
def InvSpec (inv : Mat6 → Option Mat6) : Prop := ∀ A : Mat6, IsUnit A.det → ∃ B, inv A = some B ∧ A * B = 1

/-- `propagate_stm_reynolds`, src/core_astro/stm.cpp:191-202. -/
noncomputable def propagateStmReynolds (sv : Solver) (inv : Mat6 → Option Mat6) (x : RV ℝ) (tof mu : ℝ) (stm : Bool) :
    Res (Option (RV ℝ × Option (Fin 36 → ℝ))) := do
  let res ← propagateLagrangian sv x tof mu
  match res with
  | none => return none
  | some y =>
    if stm then
      match stmReynolds inv x y tof mu with
      | none => .err .runtimeError
      | some M => return some (y, some (flat M))
    else return some (y, none)

end Kep3
