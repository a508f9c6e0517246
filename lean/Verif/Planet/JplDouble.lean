import Verif.Planet.JplLp
import Verif.Kepler.Double
import Verif.Elements.ParDouble

/-!
# Low-precision JPL planets in double precision

`src/udpla/jpl_lp.cpp` with every operation rounded, the numbers of the tables and the constants included. The mathematical library, BLAS
and the root finder are parameters. `none` is NaN. Not modelled: overflow, underflow, and contraction of products and sums into fused
operations.
-/

namespace Kep3
open Real Fl

namespace JplLp

/-- `elements_updated`, src/udpla/jpl_lp.cpp:137-140; the numbers of the tables are rounded to doubles, src/udpla/jpl_lp.cpp:33-48. -/
noncomputable def updatedD (A : LibmT) (p : JplLp) (t : ℝ) (i : Fin 6) : ℝ :=
  let dt := A.rd (A.rd (t - 1 / 2) / 36525)
  A.rd (A.rd (p.elements0 i) + A.rd (A.rd (p.elementsDot i) * dt))

/-- `DEG2RAD`, include/kep3/core_astro/constants.hpp:35. -/
noncomputable def deg2radD (A : LibmT) : ℝ := A.rd (A.rd π / 180)

/-- `_f_elements`, src/udpla/jpl_lp.cpp:128-149. -/
noncomputable def fElementsD (A : LibmT) (sv : SolverD) (p : JplLp) (t : ℝ) : Res (Option Par) :=
  if t ≤ -73048 ∨ 18263 ≤ t then .err .domainError
  else do
    let u := updatedD A p t
    let f ← m2fD A sv (A.rd (A.rd (u 3 - u 4) * deg2radD A)) (u 1)
    return f.map fun f =>
      { a := A.rd (u 0 * A.rd AU), e := u 1, i := A.rd (u 2 * deg2radD A), Om := A.rd (u 5 * deg2radD A),
        om := A.rd (A.rd (u 4 - u 5) * deg2radD A), f := f }

/-- `eph`, src/udpla/jpl_lp.cpp:151-155. -/
noncomputable def ephD (A : LibmT) (B : Blas) (sv : SolverD) (p : JplLp) (t : ℝ) : Res (Option (RV ℝ)) := do
  let q ← fElementsD A sv p t
  match q with
  | some q => par2icD A.toLibm B q (A.rd p.muCentralBody)
  | none => return none

/-- **Without rounding this is the model of `Verif/Planet/JplLp.lean`**, for all dates and for planets at which the true anomaly is a number. -/
theorem ephD_exact {sv : SolverD} {sw : Solver} (hs : ∀ f g lo hi, sv (fun t => some (f t)) g lo hi = sw f g lo hi) (p : JplLp) (t : ℝ)
    (hE : ∀ E, m2e sw ((p.updated t 3 - p.updated t 4) * DEG2RAD) (p.updated t 1) = .ok (some E) → cos (E / 2) ≠ 0) :
    eph sw p t = (do let x ← ephD .exact .exact sv p t; return spread x) := by
  have hu : updatedD .exact p t = p.updated t := by
    funext i
    show p.elements0 i + p.elementsDot i * ((t - 1 / 2) / 36525) = p.elements0 i + p.elementsDot i * ((t - 0.5) / 36525)
    norm_num
  have hm : m2fD .exact sv ((p.updated t 3 - p.updated t 4) * DEG2RAD) (p.updated t 1) =
      m2f sw ((p.updated t 3 - p.updated t 4) * DEG2RAD) (p.updated t 1) := by
    unfold m2fD m2f
    rw [(keplerD_exact hs _ _).1]
    split_ifs with h
    · rfl
    cases hx : m2e sw ((p.updated t 3 - p.updated t 4) * DEG2RAD) (p.updated t 1) with
    | ok y =>
      cases y with
      | some E =>
        show Res.ok _ = Res.ok _
        simp only [Option.bind_some]
        rw [(anomaliesD_exact _ (hE E hx)).1]
      | none => rfl
    | err e => rfl
    | ub => rfl
  have hf : fElementsD .exact sv p t = fElements sw p t := by
    unfold fElementsD fElements
    rw [hu]
    show (if _ then _ else (do
      let f ← m2fD .exact sv ((p.updated t 3 - p.updated t 4) * DEG2RAD) (p.updated t 1)
      _ : Res (Option Par))) = _
    rw [hm]
    rfl
  unfold eph ephD
  rw [hf]
  cases fElements sw p t with
  | ok q =>
    cases q with
    | some q =>
      show _ = (do let x ← par2icD Libm.exact Blas.exact q p.muCentralBody; return spread x)
      rw [par2icD_exact]
      rfl
    | none => rfl
  | err e => rfl
  | ub => rfl

end JplLp
end Kep3
