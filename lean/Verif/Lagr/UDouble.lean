import Verif.Flyby.Double
import Verif.Lagr.Model

/-!
# Propagation with universal variables in double precision

`stumpff_s`, `stumpff_c`, `kepDS`, `d_kepDS` and `propagate_lagrangian_u` with every operation rounded. `none` is NaN or infinity.
The root finder is a parameter. Not modelled: overflow, underflow, and contraction of products and sums into fused operations.
-/

namespace Kep3
open Real V3 Fl

/-- The functions of the mathematical library used, and the rounding of an operation. -/
structure Libm extends Arith where
  /-- `std::sin`. -/
  sin : ℝ → ℝ
  /-- `std::sinh`. -/
  sinh : ℝ → ℝ
  /-- `std::cosh`. -/
  cosh : ℝ → ℝ
  /-- `std::pow`. -/
  pow : ℝ → ℝ → ℝ
  /-- `std::atan2`. -/
  atan2 : ℝ → ℝ → ℝ

/-- A library without rounding. -/
noncomputable def Libm.exact : Libm := ⟨Arith.exact, Real.sin, Real.sinh, Real.cosh, fun a b => a ^ b, Kep3.atan2⟩

/-- `stumpff_s`, include/kep3/core_astro/special_functions.hpp:18-27. -/
noncomputable def stumpffSD (A : Libm) (x : ℝ) : Option ℝ :=
  if 0 < x then A.div? (A.rd (A.rd √x - A.sin (A.rd √x))) (A.pow (A.rd √x) 3)
  else if x < 0 then A.div? (A.rd (A.sinh (A.rd √(-x)) - A.rd √(-x))) (A.pow (-x) (A.rd (3 / 2)))
  else A.div? 1 6

/-- `stumpff_c`, include/kep3/core_astro/special_functions.hpp:29-38. -/
noncomputable def stumpffCD (A : Libm) (x : ℝ) : Option ℝ :=
  if 0 < x then A.div? (A.rd (1 - A.cos (A.rd √x))) x
  else if x < 0 then A.div? (A.rd (A.cosh (A.rd √(-x)) - 1)) (-x)
  else some (1 / 2)

/-- `alpha * DS * DS`, include/kep3/core_astro/kepler_equations.hpp:94-95 and src/core_astro/propagate_lagrangian.cpp:226-229. -/
noncomputable def zD (A : Libm) (alpha DS : ℝ) : ℝ := A.rd (A.rd (alpha * DS) * DS)

/-- `kepDS`, include/kep3/core_astro/kepler_equations.hpp:91-99. -/
noncomputable def kepDSD (A : Libm) (DS DT r0 vr0 alpha mu : ℝ) : Option ℝ := do
  let S ← stumpffSD A (zD A alpha DS)
  let C ← stumpffCD A (zD A alpha DS)
  let q ← A.div? (A.rd (A.rd (A.rd (A.rd (r0 * vr0) * DS) * DS) * C)) (A.rd √mu)
  return A.rd (A.rd (A.rd (A.rd (-A.rd √mu * DT) + q)
    + A.rd (A.rd (A.rd (A.rd (A.rd (1 - A.rd (alpha * r0)) * DS) * DS) * DS) * S)) + A.rd (r0 * DS))

/-- `d_kepDS`, include/kep3/core_astro/kepler_equations.hpp:101-107. -/
noncomputable def d_kepDSD (A : Libm) (DS r0 vr0 alpha mu : ℝ) : Option ℝ := do
  let S ← stumpffSD A (zD A alpha DS)
  let C ← stumpffCD A (zD A alpha DS)
  let q ← A.div? (A.rd (r0 * vr0)) (A.rd √mu)
  return A.rd (A.rd (A.rd (A.rd (q * DS) * A.rd (1 - A.rd (zD A alpha DS * S)))
    + A.rd (A.rd (A.rd (A.rd (1 - A.rd (alpha * r0)) * DS) * DS) * C)) + r0)

/-- A root finder for a function that may answer with a NaN: the last iterate, and the number of iterations. -/
def SolverD := (ℝ → Option (ℝ × ℝ)) → ℝ → ℝ → ℝ → ℝ × ℕ

/-- The function and its derivative, as given to the root finder. -/
def both (f g : Option ℝ) : Option (ℝ × ℝ) := do return (← f, ← g)

/-- The part of `propagate_lagrangian_u` after the root finder, src/core_astro/propagate_lagrangian.cpp:226-247. -/
noncomputable def uStateD (A : Libm) (r v : V3 ℝ) (R0 alpha mu dt DS : ℝ) : Option (RV ℝ) := do
  let S ← stumpffSD A (zD A alpha DS)
  let C ← stumpffCD A (zD A alpha DS)
  let z := zD A alpha DS
  let q ← A.div? (A.rd (DS * DS)) R0
  let F := A.rd (1 - A.rd (q * C))
  let q ← A.div? 1 (A.rd √mu)
  let G := A.rd (dt - A.rd (A.rd (A.rd (A.rd (q * DS) * DS) * DS) * S))
  let rf : V3 ℝ := ⟨A.rd (A.rd (F * r.x) + A.rd (G * v.x)), A.rd (A.rd (F * r.y) + A.rd (G * v.y)), A.rd (A.rd (F * r.z) + A.rd (G * v.z))⟩
  let RF := A.rd √(A.dot rf rf)
  let q ← A.div? (A.rd √mu) RF
  let q ← A.div? q R0
  let Ft := A.rd (A.rd (q * A.rd (A.rd (z * S) - 1)) * DS)
  let q ← A.div? (A.rd (DS * DS)) RF
  let Gt := A.rd (1 - A.rd (q * C))
  return ⟨rf, ⟨A.rd (A.rd (Ft * r.x) + A.rd (Gt * v.x)), A.rd (A.rd (Ft * r.y) + A.rd (Gt * v.y)),
    A.rd (A.rd (Ft * r.z) + A.rd (Gt * v.z))⟩⟩

/-- `alpha`, src/core_astro/propagate_lagrangian.cpp:197-200. -/
noncomputable def alphaD (A : Libm) (x : RV ℝ) (mu : ℝ) : Option ℝ := do
  let a ← A.div? 2 (A.rd √(A.dot x.r x.r))
  let b ← A.div? (A.dot x.v x.v) mu
  return A.rd (a - b)

/-- First component of the result of `propagate_lagrangian_u`, src/core_astro/propagate_lagrangian.cpp:176-256; `pi` is a double,
include/kep3/core_astro/constants.hpp:25. -/
noncomputable def propagateLagrangianUD (A : Libm) (sv : SolverD) (x : RV ℝ) (dt mu : ℝ) : Res (Option (RV ℝ)) :=
  let dtc := if dt < 0 then -dt else dt
  let v := if dt < 0 then -x.v else x.v
  let R0 := A.rd √(A.dot x.r x.r)
  match (if mu ≤ 0 then none else alphaD A ⟨x.r, v⟩ mu), A.div? (A.dot x.r v) R0 with
  | some alpha, some VR0 =>
    let IG := if 0 < alpha then A.rd (A.rd (A.rd √mu * dtc) * |alpha|) else 3
    let s := sv (fun DS => both (kepDSD A DS dtc R0 VR0 alpha mu) (d_kepDSD A DS R0 VR0 alpha mu)) IG
      (A.rd (IG - A.rd (2 * A.rd π))) (A.rd (IG + A.rd (2 * A.rd π)))
    if s.2 = 100 then .err .domainError
    else .ok ((uStateD A x.r v R0 alpha mu dtc s.1).map fun y => if dt < 0 then ⟨y.r, -y.v⟩ else y)
  | _, _ => .ok none

/-! ## Without rounding this is the model in exact arithmetic -/

theorem stumpffSD_exact (x : ℝ) : stumpffSD Libm.exact x = some (stumpffS x) := by
  unfold stumpffSD stumpffS
  split_ifs with h1 h2
  · have h : √x ^ (3 : ℝ) ≠ 0 := (rpow_pos_of_pos (sqrt_pos.2 h1) _).ne'
    change (Kep3.div? (√x - Real.sin √x) (√x ^ (3 : ℝ))).map id = _
    rw [div?, if_neg h]; simp
  · have h : (-x) ^ (3 / 2 : ℝ) ≠ 0 := (rpow_pos_of_pos (by linarith) _).ne'
    change (Kep3.div? (Real.sinh √(-x) - √(-x)) ((-x) ^ (3 / 2 : ℝ))).map id = _
    rw [div?, if_neg h]; simp
  · change (Kep3.div? 1 6).map id = _
    rw [div?, if_neg (by norm_num)]; simp

theorem stumpffCD_exact (x : ℝ) : stumpffCD Libm.exact x = some (stumpffC x) := by
  unfold stumpffCD stumpffC
  split_ifs with h1 h2
  · change (Kep3.div? (1 - Real.cos √x) x).map id = _
    rw [div?, if_neg h1.ne']; simp
  · change (Kep3.div? (Real.cosh √(-x) - 1) (-x)).map id = _
    rw [div?, if_neg (by linarith)]; simp
  · rfl

theorem kepDSD_exact (DS DT r0 vr0 alpha : ℝ) {mu : ℝ} (hmu : 0 < mu) :
    kepDSD Libm.exact DS DT r0 vr0 alpha mu = some (kepDS DS DT r0 vr0 alpha mu) := by
  have hm : √mu ≠ 0 := (sqrt_pos.2 hmu).ne'
  have hr : ∀ t, Libm.exact.rd t = t := fun _ => rfl
  have hd : ∀ a b, Libm.exact.div? a b = Kep3.div? a b := fun a b => by simp [Arith.div?, Libm.exact, Arith.exact]
  unfold kepDSD kepDS
  simp only [stumpffSD_exact, stumpffCD_exact, zD, hr, hd, div?, hm, if_false, Option.bind_eq_bind, Option.bind_some, Option.pure_def]

theorem d_kepDSD_exact (DS r0 vr0 alpha : ℝ) {mu : ℝ} (hmu : 0 < mu) :
    d_kepDSD Libm.exact DS r0 vr0 alpha mu = some (d_kepDS DS r0 vr0 alpha mu) := by
  have hm : √mu ≠ 0 := (sqrt_pos.2 hmu).ne'
  have hr : ∀ t, Libm.exact.rd t = t := fun _ => rfl
  have hd : ∀ a b, Libm.exact.div? a b = Kep3.div? a b := fun a b => by simp [Arith.div?, Libm.exact, Arith.exact]
  unfold d_kepDSD d_kepDS
  simp only [stumpffSD_exact, stumpffCD_exact, zD, hr, hd, div?, hm, if_false, Option.bind_eq_bind, Option.bind_some, Option.pure_def]

theorem uStateD_exact (r v : V3 ℝ) {R0 : ℝ} (alpha : ℝ) {mu : ℝ} (dt DS : ℝ) (hmu : 0 < mu) (hR : R0 ≠ 0) :
    uStateD Libm.exact r v R0 alpha mu dt DS = uState r v R0 alpha mu dt DS := by
  have hm : √mu ≠ 0 := (sqrt_pos.2 hmu).ne'
  have hr : ∀ t, Libm.exact.rd t = t := fun _ => rfl
  have hd : ∀ a b, Libm.exact.div? a b = Kep3.div? a b := fun a b => by simp [Arith.div?, Libm.exact, Arith.exact]
  unfold uStateD uState
  simp only [stumpffSD_exact, stumpffCD_exact, zD, hr, hd, div?, hm, hR, if_false, Option.bind_eq_bind, Option.bind_some,
    Option.pure_def, Arith.dot]

/-- **The model with rounding refines the model without**: with exact operations, and a root finder that does the same on functions
without NaN, the result is the same. -/
theorem propUD_exact {sv : SolverD} {sw : Solver} (hs : ∀ f g lo hi, sv (fun t => some (f t)) g lo hi = sw f g lo hi)
    (x : RV ℝ) (dt mu : ℝ) : propagateLagrangianUD Libm.exact sv x dt mu = propagateLagrangianU sw x dt mu := by
  have hr : ∀ t, Libm.exact.rd t = t := fun _ => rfl
  have hd : ∀ a b, Libm.exact.div? a b = Kep3.div? a b := fun a b => by simp [Arith.div?, Libm.exact, Arith.exact]
  unfold propagateLagrangianUD propagateLagrangianU
  by_cases hmu : 0 < mu
  · by_cases hR : √(x.r.x * x.r.x + x.r.y * x.r.y + x.r.z * x.r.z) = 0
    · simp [hR, alphaD, Arith.dot, hr, hd, div?]
    · simp only [alphaD, Arith.dot, hr, hd, div?, hR, hmu.ne', hmu.not_ge, if_false, Option.bind_eq_bind, Option.bind_some,
        Option.pure_def, false_or, kepDSD_exact _ _ _ _ _ hmu, d_kepDSD_exact _ _ _ _ hmu, both, hs,
        uStateD_exact _ _ _ _ _ hmu hR]
  · simp [not_lt.1 hmu]

end Kep3
