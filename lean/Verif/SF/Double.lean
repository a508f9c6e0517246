import Verif.SF.Flight
import Verif.FloatErr

/-!
# `sims_flanagan` in doubles: the impulses, the masses and the throttle constraints

The operations of `compute_mismatch_constraints` and `compute_throttle_constraints` with rounding. The propagator is a parameter, as in
`Verif/SF/Flight.lean`. Simplified: exponents are unbounded (no overflow, no underflow), compilers do not fuse multiplications and additions.
-/

namespace Kep3.SF
open Kep3 Fl

/-- The arithmetic. -/
structure ExpLib where
  /-- The rounding of an operation. -/
  rd : ℝ → ℝ
  /-- `std::exp`. -/
  exp : ℝ → ℝ

namespace ExpLib

/-- Arithmetic without rounding. -/
noncomputable def exact : ExpLib := ⟨id, Real.exp⟩

/-- Doubles, and an exponential accurate to two units in the last place. -/
structure Double (A : ExpLib) : Prop where
  /-- Round to nearest, ties to even. -/
  rd : A.rd = rn
  exp : ∀ x, |A.exp x - Real.exp x| ≤ 4 * u * Real.exp x

/-- The exponential that is correctly rounded. -/
theorem rounded_double : Double ⟨rn, fun x => rn (Real.exp x)⟩ where
  rd := rfl
  exp x := by
    have := rn_err' (Real.exp x)
    rw [abs_of_pos (Real.exp_pos x)] at this
    have h : 0 ≤ u * Real.exp x := mul_nonneg u_pos.le (Real.exp_pos x).le
    show |rn (Real.exp x) - Real.exp x| ≤ _
    linarith

variable (A : ExpLib)

/-- `std::sqrt(dv[0] * dv[0] + dv[1] * dv[1] + dv[2] * dv[2])`, src/leg/sims_flanagan.cpp:224 and 251. -/
noncomputable def norm (v : V3 ℝ) : ℝ := A.rd √(A.rd (A.rd (A.rd (v.x * v.x) + A.rd (v.y * v.y)) + A.rd (v.z * v.z)))

/-- The impulse, src/leg/sims_flanagan.cpp:216-218 and 243-245. -/
noncomputable def impulse (c m : ℝ) (w : V3 ℝ) : V3 ℝ :=
  ⟨A.rd (A.rd (c / m) * w.x), A.rd (A.rd (c / m) * w.y), A.rd (A.rd (c / m) * w.z)⟩

/-- Impulse of the forward pass, src/leg/sims_flanagan.cpp:216-225. -/
noncomputable def fwdKick (c veff : ℝ) (s : Craft) (w : V3 ℝ) : Craft :=
  let dv := A.impulse c s.m w
  ⟨s.rv.map fun x => ⟨x.r, ⟨A.rd (x.v.x + dv.x), A.rd (x.v.y + dv.y), A.rd (x.v.z + dv.z)⟩⟩,
    A.rd (s.m * A.exp (A.rd (-(A.norm dv) / veff)))⟩

/-- Impulse of the backward pass, src/leg/sims_flanagan.cpp:243-252. -/
noncomputable def bckKick (c veff : ℝ) (s : Craft) (w : V3 ℝ) : Craft :=
  let dv := A.impulse c s.m w
  ⟨s.rv.map fun x => ⟨x.r, ⟨A.rd (x.v.x - dv.x), A.rd (x.v.y - dv.y), A.rd (x.v.z - dv.z)⟩⟩,
    A.rd (s.m * A.exp (A.rd (A.norm dv / veff)))⟩

/-- The forward pass acts like this on the spacecraft. -/
noncomputable def fwdMachine (φ : RV ℝ → ℝ → Option (RV ℝ)) (c veff : ℝ) : Machine Craft := ⟨craftCoast φ, A.fwdKick c veff⟩

/-- The backward pass acts like this on the spacecraft. -/
noncomputable def bckMachine (φ : RV ℝ → ℝ → Option (RV ℝ)) (c veff : ℝ) : Machine Craft := ⟨craftCoast φ, A.bckKick c veff⟩

/-- `veff`, src/leg/sims_flanagan.cpp:201; `G0` is a double. -/
noncomputable def veff (isp : ℝ) : ℝ := A.rd (isp * A.rd G0)

/-- `compute_mismatch_constraints`, src/leg/sims_flanagan.cpp:197-261. Halving and negating the duration are exact. -/
noncomputable def computeMismatch (φ : RV ℝ → ℝ → Option (RV ℝ)) (l : Leg ℝ) : Res (Option (RV ℝ) × ℝ) := do
  let veff := A.veff l.isp
  let dt := A.rd (l.tof / l.nseg)
  let c := A.rd (l.maxThrust * dt)
  let f ← fwdPass (A.fwdMachine φ c veff) ⟨some l.rvs, l.ms⟩ l.throttles l.nsegFwd dt
  let b ← bckPass (A.bckMachine φ c veff) ⟨some l.rvf, l.mf⟩ l.throttles l.nsegBck dt
  let diff := f.rv.bind fun x => b.rv.map fun y =>
    (⟨⟨A.rd (x.r.x - y.r.x), A.rd (x.r.y - y.r.y), A.rd (x.r.z - y.r.z)⟩,
      ⟨A.rd (x.v.x - y.v.x), A.rd (x.v.y - y.v.y), A.rd (x.v.z - y.v.z)⟩⟩ : RV ℝ)
  return (diff, A.rd (f.m - b.m))

/-- `compute_throttle_constraints`, src/leg/sims_flanagan.cpp:263-271. -/
noncomputable def throttleConstraints (l : Leg ℝ) : Res (List ℝ) :=
  (List.range l.nseg).mapM fun i => do
    let w ← triple l.throttles (3 * i) (3 * i + 1) (3 * i + 2)
    Res.ok (A.rd (A.rd (A.rd (A.rd (w.x * w.x) + A.rd (w.y * w.y)) + A.rd (w.z * w.z)) - 1))

end ExpLib

/-- Without rounding these are the functions of `Verif/SF/Flight.lean`. -/
theorem double_exact (φ : RV ℝ → ℝ → Option (RV ℝ)) (l : Leg ℝ) :
    ExpLib.exact.computeMismatch φ l = computeMismatch φ l ∧ ExpLib.exact.throttleConstraints l = throttleConstraints l := ⟨rfl, rfl⟩

end Kep3.SF
