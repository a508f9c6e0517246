import Verif.Lagr.UDouble

/-!
# Propagation with the Lagrange coefficients in double precision

`kepDE`, `kepDH` and their derivatives, and `propagate_lagrangian`, with every operation rounded. `none` is NaN or infinity. The
mathematical library and the root finder are parameters. Not modelled: overflow, underflow, contraction of products and sums into
fused operations, and the state transition matrix.
-/

namespace Kep3
open Real V3 Fl

/-- `kepDE`, include/kep3/core_astro/kepler_equations.hpp:57-60. -/
noncomputable def kepDED (A : Libm) (DE DM sigma0 sqrta a R : ℝ) : Option ℝ := do
  let q ← A.div? sigma0 sqrta
  let p ← A.div? R a
  return A.rd (A.rd (A.rd (-DM + DE) + A.rd (q * A.rd (1 - A.cos DE))) - A.rd (A.rd (1 - p) * A.sin DE))

/-- `d_kepDE`, include/kep3/core_astro/kepler_equations.hpp:62-65. -/
noncomputable def d_kepDED (A : Libm) (DE sigma0 sqrta a R : ℝ) : Option ℝ := do
  let q ← A.div? sigma0 sqrta
  let p ← A.div? R a
  return A.rd (A.rd (1 + A.rd (q * A.sin DE)) - A.rd (A.rd (1 - p) * A.cos DE))

/-- `kepDH`, include/kep3/core_astro/kepler_equations.hpp:74-77. -/
noncomputable def kepDHD (A : Libm) (DH DN sigma0 sqrta a R : ℝ) : Option ℝ := do
  let q ← A.div? sigma0 sqrta
  let p ← A.div? R a
  return A.rd (A.rd (A.rd (-DN - DH) + A.rd (q * A.rd (A.cosh DH - 1))) + A.rd (A.rd (1 - p) * A.sinh DH))

/-- `d_kepDH`, include/kep3/core_astro/kepler_equations.hpp:79-82. -/
noncomputable def d_kepDHD (A : Libm) (DH sigma0 sqrta a R : ℝ) : Option ℝ := do
  let q ← A.div? sigma0 sqrta
  let p ← A.div? R a
  return A.rd (A.rd (-1 + A.rd (q * A.sinh DH)) + A.rd (A.rd (1 - p) * A.cosh DH))

/-- The initial guess for the eccentric anomaly difference, src/core_astro/propagate_lagrangian.cpp:69-73. -/
noncomputable def igDED (A : Libm) (DMc sinDM cosDM s0 c0 : ℝ) : ℝ :=
  let P := A.rd (A.rd (c0 * cosDM) - A.rd (s0 * sinDM))
  let Q := A.rd (A.rd (c0 * sinDM) + A.rd (s0 * cosDM))
  A.rd (A.rd (A.rd (A.rd (DMc + A.rd (c0 * sinDM)) - A.rd (s0 * A.rd (1 - cosDM))) + A.rd (P * A.rd (Q - s0)))
    + A.rd (A.rd (1 / 2 * A.rd (Q - s0)) * A.rd (A.rd (2 * A.pow P 2) - A.rd (A.rd (Q - s0) * Q))))

/-- The Lagrange coefficients. -/
structure FG where
  F : ℝ
  G : ℝ
  Ft : ℝ
  Gt : ℝ

/-- `Rf`, `F`, `G`, `Ft`, `Gt` of the elliptic case, src/core_astro/propagate_lagrangian.cpp:94-100. -/
noncomputable def coeffED (A : Libm) (mu R0 sigma0 a sqrta DE : ℝ) : Option FG := do
  let Rf := A.rd (A.rd (a + A.rd (A.rd (R0 - a) * A.cos DE)) + A.rd (A.rd (sigma0 * sqrta) * A.sin DE))
  let q1 ← A.div? a R0
  let q2 ← A.div? (A.rd (a * sigma0)) (A.rd √mu)
  let q3 ← A.div? a mu
  let q3 ← A.sqrt? q3
  let q4 ← A.sqrt? (A.rd (mu * a))
  let q4 ← A.div? (-q4) (A.rd (Rf * R0))
  let q5 ← A.div? a Rf
  return { F := A.rd (1 - A.rd (q1 * A.rd (1 - A.cos DE)))
           G := A.rd (A.rd (q2 * A.rd (1 - A.cos DE)) + A.rd (A.rd (R0 * q3) * A.sin DE))
           Ft := A.rd (q4 * A.sin DE)
           Gt := A.rd (1 - A.rd (q5 * A.rd (1 - A.cos DE))) }

/-- `Rf`, `F`, `G`, `Ft`, `Gt` of the hyperbolic case, src/core_astro/propagate_lagrangian.cpp:136-142. -/
noncomputable def coeffHD (A : Libm) (mu R0 sigma0 a sqrta DH : ℝ) : Option FG := do
  let Rf := A.rd (A.rd (a + A.rd (A.rd (R0 - a) * A.cosh DH)) + A.rd (A.rd (sigma0 * sqrta) * A.sinh DH))
  let q1 ← A.div? a R0
  let q2 ← A.div? (A.rd (a * sigma0)) (A.rd √mu)
  let q3 ← A.div? (-a) mu
  let q3 ← A.sqrt? q3
  let q4 ← A.sqrt? (A.rd (-mu * a))
  let q4 ← A.div? (-q4) (A.rd (Rf * R0))
  let q5 ← A.div? a Rf
  return { F := A.rd (1 - A.rd (q1 * A.rd (1 - A.cosh DH)))
           G := A.rd (A.rd (q2 * A.rd (1 - A.cosh DH)) + A.rd (A.rd (R0 * q3) * A.sinh DH))
           Ft := A.rd (q4 * A.sinh DH)
           Gt := A.rd (1 - A.rd (q5 * A.rd (1 - A.cosh DH))) }

/-- Run the root finder on numbers, or answer that there is none. -/
def tryRoot (s : Option (ℝ × ℕ)) (k : ℝ → Option FG) : Res (Option FG) :=
  match s with
  | none => .ok none
  | some s => if s.2 = 100 then .err .domainError else .ok (k s.1)

/-- The mean anomaly difference in `[0, 2 pi]`, src/core_astro/propagate_lagrangian.cpp:61-64; `pi` is a double,
include/kep3/core_astro/constants.hpp:25. -/
noncomputable def wrapNegD (A : Libm) (x : ℝ) : ℝ := if x < 0 then A.rd (x + A.rd (2 * A.rd π)) else x

/-- The branch `a > 0`, src/core_astro/propagate_lagrangian.cpp:53-101; `pi` is a double, include/kep3/core_astro/constants.hpp:25. -/
noncomputable def lagrED (A : Libm) (sv : SolverD) (tof mu R0 sigma0 a : ℝ) : Res (Option FG) :=
  let sqrta := A.rd √a
  let s : Option (ℝ × ℕ) := do
    let n ← A.div? mu (A.pow a 3)
    let n ← A.sqrt? n
    let DM := A.rd (n * tof)
    let sinDM := A.sin DM
    let cosDM := A.cos DM
    let DMc := wrapNegD A (A.atan2 sinDM cosDM)
    let s0 ← A.div? sigma0 sqrta
    let q ← A.div? R0 a
    let IG := igDED A DMc sinDM cosDM s0 (A.rd (1 - q))
    return sv (fun DE => both (kepDED A DE DMc sigma0 sqrta a R0) (d_kepDED A DE sigma0 sqrta a R0)) IG (A.rd (IG - A.rd π)) (A.rd (IG + A.rd π))
  tryRoot s fun DE => coeffED A mu R0 sigma0 a sqrta DE

/-- The branch `a < 0`, src/core_astro/propagate_lagrangian.cpp:102-144. -/
noncomputable def lagrHD (A : Libm) (sv : SolverD) (tof mu R0 sigma0 a : ℝ) : Res (Option FG) :=
  let sqrta := A.rd √(-a)
  let s : Option (ℝ × ℕ) := do
    let n ← A.div? (-mu) a
    let n ← A.div? n a
    let n ← A.div? n a
    let n ← A.sqrt? n
    let DN := A.rd (n * tof)
    let IG : ℝ := if 0 < tof then 1 else -1
    return sv (fun DH => both (kepDHD A DH DN sigma0 sqrta a R0) (d_kepDHD A DH sigma0 sqrta a R0)) IG (A.rd (IG - 50)) (A.rd (IG + 50))
  tryRoot s fun DH => coeffHD A mu R0 sigma0 a sqrta DH

/-- The final state, src/core_astro/propagate_lagrangian.cpp:146-149. -/
noncomputable def FG.stateD (A : Libm) (q : FG) (x : RV ℝ) : RV ℝ :=
  ⟨⟨A.rd (A.rd (q.F * x.r.x) + A.rd (q.G * x.v.x)), A.rd (A.rd (q.F * x.r.y) + A.rd (q.G * x.v.y)),
    A.rd (A.rd (q.F * x.r.z) + A.rd (q.G * x.v.z))⟩,
   ⟨A.rd (A.rd (q.Ft * x.r.x) + A.rd (q.Gt * x.v.x)), A.rd (A.rd (q.Ft * x.r.y) + A.rd (q.Gt * x.v.y)),
    A.rd (A.rd (q.Ft * x.r.z) + A.rd (q.Gt * x.v.z))⟩⟩

/-- The semi-major axis and `r . v / sqrt mu`, src/core_astro/propagate_lagrangian.cpp:42-51. -/
noncomputable def orbitD (A : Libm) (x : RV ℝ) (mu : ℝ) : Option (ℝ × ℝ) := do
  let R0 := A.rd √(A.dot x.r x.r)
  let p ← A.div? mu R0
  let a ← A.div? (A.rd (-mu / 2)) (A.rd (A.rd (A.dot x.v x.v / 2) - p))
  let sigma0 ← A.div? (A.dot x.r x.v) (A.rd √mu)
  return (a, sigma0)

/-- First component of the result of `propagate_lagrangian`, src/core_astro/propagate_lagrangian.cpp:36-156. -/
noncomputable def propagateLagrangianD (A : Libm) (sv : SolverD) (x : RV ℝ) (tof mu : ℝ) : Res (Option (RV ℝ)) :=
  let R0 := A.rd √(A.dot x.r x.r)
  match (if mu ≤ 0 then none else orbitD A x mu) with
  | none => .ok none
  | some (a, sigma0) => do
    let q ← if 0 < a then lagrED A sv tof mu R0 sigma0 a else lagrHD A sv tof mu R0 sigma0 a
    return q.map fun q => q.stateD A x

/-! ## Without rounding this is the model in exact arithmetic -/

section
private theorem ex_rd (t : ℝ) : Libm.exact.rd t = t := rfl
private theorem ex_div (a b : ℝ) : Libm.exact.div? a b = div? a b := by simp [Arith.div?, Libm.exact, Arith.exact]
private theorem ex_sqrt (a : ℝ) : Libm.exact.sqrt? a = sqrt? a := by simp [Arith.sqrt?, Libm.exact, Arith.exact]
private theorem ex_sin (a : ℝ) : Libm.exact.sin a = Real.sin a := rfl
private theorem ex_cos (a : ℝ) : Libm.exact.cos a = Real.cos a := rfl
private theorem ex_sinh (a : ℝ) : Libm.exact.sinh a = Real.sinh a := rfl
private theorem ex_cosh (a : ℝ) : Libm.exact.cosh a = Real.cosh a := rfl
private theorem ex_atan2 (a b : ℝ) : Libm.exact.atan2 a b = atan2 a b := rfl

theorem coeffED_exact (mu R0 energy sigma0 a sqrta s0 c0 DE : ℝ) :
    coeffED Libm.exact mu R0 sigma0 a sqrta DE = (coeffE mu R0 energy sigma0 a sqrta s0 c0 DE).map fun q => ⟨q.F, q.G, q.Ft, q.Gt⟩ := by
  unfold coeffED coeffE
  simp only [ex_rd, ex_div, ex_sqrt, ex_sin, ex_cos, Option.bind_eq_bind, Option.pure_def, Option.map_bind, Function.comp_def, Option.map_some]

theorem coeffHD_exact (mu R0 energy sigma0 a sqrta s0 c0 DH : ℝ) :
    coeffHD Libm.exact mu R0 sigma0 a sqrta DH = (coeffH mu R0 energy sigma0 a sqrta s0 c0 DH).map fun q => ⟨q.F, q.G, q.Ft, q.Gt⟩ := by
  unfold coeffHD coeffH
  simp only [ex_rd, ex_div, ex_sqrt, ex_sinh, ex_cosh, Option.bind_eq_bind, Option.pure_def, Option.map_bind, Function.comp_def, Option.map_some]

theorem igDED_exact (DMc sinDM cosDM s0 c0 : ℝ) : igDED Libm.exact DMc sinDM cosDM s0 c0 = igDE DMc sinDM cosDM s0 c0 := by
  unfold igDED igDE
  simp only [ex_rd]
  have : ∀ t : ℝ, Libm.exact.pow t 2 = t ^ 2 := fun t => Real.rpow_two t
  rw [this]

theorem kepDED_exact (DE DM sigma0 R : ℝ) {sqrta a : ℝ} (hs : sqrta ≠ 0) (ha : a ≠ 0) :
    both (kepDED Libm.exact DE DM sigma0 sqrta a R) (d_kepDED Libm.exact DE sigma0 sqrta a R)
      = some (kepDE DE DM sigma0 sqrta a R, d_kepDE DE sigma0 sqrta a R) := by
  unfold kepDED d_kepDED kepDE d_kepDE both
  simp only [ex_rd, ex_div, ex_sin, ex_cos, div?, hs, ha, if_false, Option.bind_eq_bind, Option.bind_some, Option.pure_def]

theorem kepDHD_exact (DH DN sigma0 R : ℝ) {sqrta a : ℝ} (hs : sqrta ≠ 0) (ha : a ≠ 0) :
    both (kepDHD Libm.exact DH DN sigma0 sqrta a R) (d_kepDHD Libm.exact DH sigma0 sqrta a R)
      = some (kepDH DH DN sigma0 sqrta a R, d_kepDH DH sigma0 sqrta a R) := by
  unfold kepDHD d_kepDHD kepDH d_kepDH both
  simp only [ex_rd, ex_div, ex_sinh, ex_cosh, div?, hs, ha, if_false, Option.bind_eq_bind, Option.bind_some, Option.pure_def]

variable {sv : SolverD} {sw : Solver} (hs : ∀ f g lo hi, sv (fun t => some (f t)) g lo hi = sw f g lo hi)
include hs

theorem lagrED_exact (tof : ℝ) {mu : ℝ} (R0 energy sigma0 : ℝ) {a : ℝ} (hmu : 0 < mu) (ha : 0 < a) :
    lagrED Libm.exact sv tof mu R0 sigma0 a
      = (do let q ← lagrE sw tof mu R0 energy sigma0 a; return q.map fun q => (⟨q.F, q.G, q.Ft, q.Gt⟩ : FG)) := by
  have hq : √a ≠ 0 := (sqrt_pos.2 ha).ne'
  have hp : Libm.exact.pow a 3 = a ^ 3 := by
    show a ^ (3 : ℝ) = a ^ 3
    rw [← Real.rpow_natCast]; norm_num
  have h3 : a ^ 3 ≠ 0 := (by positivity : 0 < a ^ 3).ne'
  have hw : ∀ t : ℝ, wrapNegD Libm.exact t = wrapNeg t := fun t => by unfold wrapNegD wrapNeg; simp only [ex_rd]
  have hn : ¬ mu / a ^ 3 < 0 := not_lt.2 (by positivity)
  unfold lagrED lagrE
  simp only [ex_rd, ex_div, ex_sqrt, ex_sin, ex_cos, ex_atan2, hp, div?, sqrt?, h3, hn, hq, ha.ne', if_false, Option.bind_eq_bind,
    Option.bind_some, Option.pure_def, igDED_exact, kepDED_exact _ _ _ _ hq ha.ne', hs, tryRoot, hw, coeffED_exact mu R0 energy sigma0 a √a (sigma0 / √a) (1 - R0 / a)]
  generalize sw _ _ _ _ = s
  by_cases h : s.2 = 100 <;> simp only [h, if_true, if_false] <;> rfl

theorem lagrHD_exact (tof : ℝ) {mu : ℝ} (R0 energy sigma0 : ℝ) {a : ℝ} (hmu : 0 < mu) (ha : a < 0) :
    lagrHD Libm.exact sv tof mu R0 sigma0 a
      = (do let q ← lagrH sw tof mu R0 energy sigma0 a; return q.map fun q => (⟨q.F, q.G, q.Ft, q.Gt⟩ : FG)) := by
  have hq : √(-a) ≠ 0 := (sqrt_pos.2 (by linarith)).ne'
  have hn : ¬ -mu / a / a / a < 0 := not_lt.2 (by
    rw [show -mu / a / a / a = mu / (-a) ^ 3 by rw [div_div, div_div, show (-a) ^ 3 = -(a * (a * a)) by ring, div_neg, neg_div]]
    have : 0 < -a := by linarith
    positivity)
  unfold lagrHD lagrH
  simp only [ex_rd, ex_div, ex_sqrt, ex_sinh, ex_cosh, div?, sqrt?, hn, hq, ha.ne, if_false, Option.bind_eq_bind,
    Option.bind_some, Option.pure_def, kepDHD_exact _ _ _ _ hq ha.ne, hs, tryRoot, coeffHD_exact mu R0 energy sigma0 a √(-a) (sigma0 / √(-a)) (1 - R0 / a)]
  generalize sw _ _ _ _ = s
  by_cases h : s.2 = 100 <;> simp only [h, if_true, if_false] <;> rfl

/-- **The model with rounding refines the model without**: with exact operations, and a root finder that does the same on functions
without NaN, the result is the same. -/
theorem propD_exact (x : RV ℝ) (tof mu : ℝ) : propagateLagrangianD Libm.exact sv x tof mu = propagateLagrangian sw x tof mu := by
  unfold propagateLagrangianD propagateLagrangian lagr
  by_cases hmu : 0 < mu
  · have hm : √mu ≠ 0 := (sqrt_pos.2 hmu).ne'
    by_cases hR : √(x.r.x * x.r.x + x.r.y * x.r.y + x.r.z * x.r.z) = 0
    · simp [hR, orbitD, Arith.dot, ex_rd, ex_div, div?]
    · by_cases hE : (x.v.x * x.v.x + x.v.y * x.v.y + x.v.z * x.v.z) / 2 - mu / √(x.r.x * x.r.x + x.r.y * x.r.y + x.r.z * x.r.z) = 0
      · simp only [orbitD, Arith.dot, ex_rd, ex_div, div?, hR, hE, hmu.not_ge, if_false, if_true, Option.bind_eq_bind, Option.bind_some,
          Option.bind_none, or_false]
        rfl
      · simp only [orbitD, Arith.dot, ex_rd, ex_div, div?, hR, hE, hmu.not_ge, hm, if_false, Option.bind_eq_bind, Option.bind_some,
          Option.pure_def, or_false]
        split
        · next ha =>
          rw [lagrED_exact hs tof _ ((x.v.x * x.v.x + x.v.y * x.v.y + x.v.z * x.v.z) / 2
            - mu / √(x.r.x * x.r.x + x.r.y * x.r.y + x.r.z * x.r.z)) _ hmu ha]
          cases lagrE sw tof mu _ _ _ _ with
          | ok q => cases q <;> rfl
          | err e => rfl
          | ub => rfl
        · next ha =>
          have ha' := lt_of_le_of_ne (not_lt.1 ha) (by
            exact div_ne_zero (div_ne_zero (neg_ne_zero.2 hmu.ne') two_ne_zero) hE)
          rw [lagrHD_exact hs tof _ ((x.v.x * x.v.x + x.v.y * x.v.y + x.v.z * x.v.z) / 2
            - mu / √(x.r.x * x.r.x + x.r.y * x.r.y + x.r.z * x.r.z)) _ hmu ha']
          cases lagrH sw tof mu _ _ _ _ with
          | ok q => cases q <;> rfl
          | err e => rfl
          | ub => rfl
  · simp [not_lt.1 hmu]

end

end Kep3
