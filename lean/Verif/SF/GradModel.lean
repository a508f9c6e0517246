import Verif.SF.Flight
import Verif.SF.FlightSpec
import Mathlib.Data.Matrix.Mul
import Mathlib.LinearAlgebra.Matrix.Notation

/-!
# `sims_flanagan::compute_mc_grad` and its helpers

Real arithmetic. The propagator and its state transition matrix are parameters `φ` and `Φ`
(`propagate_lagrangian(rv, t, mu, true)`). Arrays are functions of row and column; the flat row-major
vectors the code returns are produced by `flatten`. Column indices of the internal arrays follow the
code: `3 nseg` throttle columns, then the initial mass, then the time of flight.
-/

namespace Kep3.SF

open Kep3 SFSpec

/-- A state as the column the code multiplies matrices with (position, then velocity). -/
def vec (x : RV ℝ) : Fin 6 → ℝ := ![x.r.x, x.r.y, x.r.z, x.v.x, x.v.y, x.v.z]

/-- `_dyn`, src/leg/sims_flanagan.cpp:273-284. -/
noncomputable def dyn (x : RV ℝ) (mu : ℝ) : Fin 6 → ℝ :=
  let R3 := (x.r.x * x.r.x + x.r.y * x.r.y + x.r.z * x.r.z) ^ (3 / 2 : ℝ)
  ![x.v.x, x.v.y, x.v.z, -mu / R3 * x.r.x, -mu / R3 * x.r.y, -mu / R3 * x.r.z]

/-- Component `k` of a vector. -/
def V3.get (u : V3 ℝ) : Fin 3 → ℝ := ![u.x, u.y, u.z]

/-- Arguments of `gradients_multiple_impulses`, src/leg/sims_flanagan.cpp:287-290, plus the members it
reads (`m_max_thrust`, `m_mu`). The throttles between the two iterators are given as a list of
triples. -/
structure GradArgs where
  us : List (V3 ℝ)
  rvs : RV ℝ
  ms : ℝ
  c : ℝ
  a : ℝ
  dt : ℝ
  maxThrust : ℝ
  mu : ℝ

namespace GradArgs

variable (g : GradArgs)

/-- `nseg`, src/leg/sims_flanagan.cpp:293. -/
def n : ℕ := g.us.length
/-- `u[i]`, src/leg/sims_flanagan.cpp:317-320. -/
def u (i : ℕ) : V3 ℝ := g.us.getD i 0
/-- `du[i](k, j)`, src/leg/sims_flanagan.cpp:305, 321-323. -/
noncomputable def du (i : ℕ) (k : Fin 3) (j : ℕ) : ℝ := if j = 3 * i + k then 1 else 0
/-- `dtof(0, j)`, src/leg/sims_flanagan.cpp:308, 327. -/
noncomputable def dtof (j : ℕ) : ℝ := if j = 3 * g.n + 1 then 1 else 0
/-- `un`, src/leg/sims_flanagan.cpp:331. -/
noncomputable def un (i : ℕ) : ℝ :=
  Real.sqrt ((g.u i).x * (g.u i).x + (g.u i).y * (g.u i).y + (g.u i).z * (g.u i).z)
/-- `m[i]`, src/leg/sims_flanagan.cpp:315, 332, 337. -/
noncomputable def m : ℕ → ℝ
  | 0 => g.ms
  | i + 1 => m i * Real.exp (-(g.c / m i * g.un i) * g.a)
/-- `dDvn` as a function of `dm[i]`, src/leg/sims_flanagan.cpp:335-336. -/
noncomputable def dDvn (i : ℕ) (dm : ℕ → ℝ) (j : ℕ) : ℝ :=
  g.c / g.m i / g.un i * (∑ k, V3.get (g.u i) k * du i k j) - g.c / g.m i / g.m i * g.un i * dm j
    + g.maxThrust / g.m i * g.un i * g.dtof j / g.n
/-- `dm[i](0, j)`, src/leg/sims_flanagan.cpp:307, 326, 338. -/
noncomputable def dm : ℕ → ℕ → ℝ
  | 0, j => if j = 3 * g.n then 1 else 0
  | i + 1, j => -g.m (i + 1) * g.a * g.dDvn i (dm i) j + Real.exp (-(g.c / g.m i * g.un i) * g.a) * dm i j
/-- `Dv[i]`, src/leg/sims_flanagan.cpp:330. -/
noncomputable def Dv (i : ℕ) : V3 ℝ := ⟨g.c / g.m i * (g.u i).x, g.c / g.m i * (g.u i).y, g.c / g.m i * (g.u i).z⟩
/-- `dDv[i](k, j)`, src/leg/sims_flanagan.cpp:333-334. -/
noncomputable def dDv (i : ℕ) (k : Fin 3) (j : ℕ) : ℝ :=
  g.c / g.m i * du i k j - g.c / g.m i / g.m i * (V3.get (g.u i) k * g.dm i j)
    + g.maxThrust / g.m i * (V3.get (g.u i) k * g.dtof j) / g.n

/-- `dur`, src/leg/sims_flanagan.cpp:344-347. -/
noncomputable def dur (i : ℕ) : ℝ := if i = 0 ∨ i = g.n then g.dt / 2 else g.dt
/-- The state passed to the `i`-th propagation, src/leg/sims_flanagan.cpp:341-361: the previous state
plus the impulse. -/
noncomputable def before (φ : RV ℝ → ℝ → RV ℝ) : ℕ → RV ℝ
  | 0 => g.rvs
  | i + 1 =>
    let x := φ (before φ i) (g.dur i)
    ⟨x.r, ⟨x.v.x + (g.Dv i).x, x.v.y + (g.Dv i).y, x.v.z + (g.Dv i).z⟩⟩
/-- `rv_it` after the `i`-th propagation, src/leg/sims_flanagan.cpp:349. -/
noncomputable def after (φ : RV ℝ → ℝ → RV ℝ) (i : ℕ) : RV ℝ := φ (g.before φ i) (g.dur i)
/-- `M[i]`, src/leg/sims_flanagan.cpp:353. -/
noncomputable def M (φ : RV ℝ → ℝ → RV ℝ) (Φ : RV ℝ → ℝ → Matrix (Fin 6) (Fin 6) ℝ) (i : ℕ) :
    Matrix (Fin 6) (Fin 6) ℝ := Φ (g.before φ i) (g.dur i)
/-- `f[i]`, src/leg/sims_flanagan.cpp:354. -/
noncomputable def f (φ : RV ℝ → ℝ → RV ℝ) (i : ℕ) : Fin 6 → ℝ := dyn (g.after φ i) g.mu

section
variable (φ : RV ℝ → ℝ → RV ℝ) (Φ : RV ℝ → ℝ → Matrix (Fin 6) (Fin 6) ℝ)

/-- `Mc[nseg - i]` of the loop src/leg/sims_flanagan.cpp:368-371. -/
noncomputable def McDown : ℕ → Matrix (Fin 6) (Fin 6) ℝ
  | 0 => g.M φ Φ g.n
  | i + 1 => McDown i * g.M φ Φ (g.n - (i + 1))
/-- `Mc[i]`. -/
noncomputable def Mc (i : ℕ) : Matrix (Fin 6) (Fin 6) ℝ := g.McDown φ Φ (g.n - i)
/-- `Iv`, src/leg/sims_flanagan.cpp:364-367. -/
def Iv : Matrix (Fin 6) (Fin 3) ℝ :=
  !![0, 0, 0; 0, 0, 0; 0, 0, 0; 1, 0, 0; 0, 1, 0; 0, 0, 1]

/-- `grad_tof`, src/leg/sims_flanagan.cpp:375-386. -/
noncomputable def gradTof (r : Fin 6) : ℝ :=
  (((1 / 2 : ℝ) * g.f φ g.n r + ∑ i ∈ Finset.range (g.n - 1), (g.Mc φ Φ (i + 2)).mulVec (g.f φ (i + 1)) r
    + 1 / 2 * (g.Mc φ Φ 1).mulVec (g.f φ 0) r) / g.n)
    + ∑ i ∈ Finset.range g.n, (g.Mc φ Φ (i + 1) * Iv).mulVec (fun k => g.dDv i k (3 * g.n + 1)) r
/-- `grad_u`, src/leg/sims_flanagan.cpp:388-391. -/
noncomputable def gradU (r : Fin 6) (j : ℕ) : ℝ :=
  ∑ i ∈ Finset.range g.n, (g.Mc φ Φ (i + 1) * Iv).mulVec (fun k => g.dDv i k j) r
/-- `grad_ms`, src/leg/sims_flanagan.cpp:393-397. -/
noncomputable def gradMs (r : Fin 6) : ℝ :=
  ∑ i ∈ Finset.range g.n, (g.Mc φ Φ (i + 1) * Iv).mulVec (fun k => g.dDv i k (3 * g.n)) r

/-- The first return value `grad_rvm` (7×7) of `gradients_multiple_impulses`,
src/leg/sims_flanagan.cpp:296-302 (no segment) and 414-417. -/
noncomputable def gradRvm (r : ℕ) (j : ℕ) : ℝ :=
  if g.n = 0 then (if r = j then 1 else 0)
  else if h : r < 6 then
    if h' : j < 6 then g.Mc φ Φ 0 ⟨r, h⟩ ⟨j, h'⟩ else g.gradMs φ Φ ⟨r, h⟩
  else if j = 6 then g.dm g.n (3 * g.n) else 0
/-- The second return value `grad` (7×(3 nseg + 1)) of `gradients_multiple_impulses`,
src/leg/sims_flanagan.cpp:300 (no segment) and 403-413. -/
noncomputable def grad (r : ℕ) (j : ℕ) : ℝ :=
  if g.n = 0 then 0
  else if h : r < 6 then
    if j < 3 * g.n then g.gradU φ Φ ⟨r, h⟩ j else g.gradTof φ Φ ⟨r, h⟩
  else if j < 3 * g.n then g.dm g.n j else g.dm g.n (3 * g.n + 1)

end
end GradArgs

/-- Change of sign of the velocity. -/
def flipV (x : RV ℝ) : RV ℝ := ⟨x.r, ⟨-x.v.x, -x.v.y, -x.v.z⟩⟩

section
variable (φ : RV ℝ → ℝ → RV ℝ) (Φ : RV ℝ → ℝ → Matrix (Fin 6) (Fin 6) ℝ)

/-- Arguments `gradients_bck` hands to `gradients_multiple_impulses`,
src/leg/sims_flanagan.cpp:436-460: velocity reversed, throttle triples in reverse order, `a` negated. -/
def bckArgs (g : GradArgs) : GradArgs :=
  { g with us := g.us.reverse, rvs := flipV g.rvs, a := -g.a }

/-- First return value of `gradients_bck`, src/leg/sims_flanagan.cpp:464-467: rows 3..5 change sign,
then columns 0..2, then column 6. -/
noncomputable def bckRvm (g : GradArgs) (r j : ℕ) : ℝ :=
  let x := (bckArgs g).gradRvm φ Φ r j
  let x := if 3 ≤ r ∧ r < 6 then x * -1 else x
  let x := if j < 3 then x * -1 else x
  if j = 6 then x * -1 else x

/-- Second return value of `gradients_bck`, src/leg/sims_flanagan.cpp:469-478: rows 3..5 change sign,
then the throttle columns, then the throttle columns are flipped as a whole and flipped again in
blocks of three, so that column `3 i + k` receives column `3 (nseg - 1 - i) + k`. -/
noncomputable def bckGrad (g : GradArgs) (r j : ℕ) : ℝ :=
  let size := 3 * g.us.length
  let x := fun j => (bckArgs g).grad φ Φ r j
  let x := fun j => if 3 ≤ r ∧ r < 6 then x j * -1 else x j
  let x := fun j => if j < size then x j * -1 else x j
  let x1 := fun j => if j < size then x (size - 1 - j) else x j
  let x2 := fun j => if j < size then x1 (3 * (j / 3) + (2 - j % 3)) else x1 j
  x2 j

/-- Row-major flattening. -/
noncomputable def flatten (rows cols : ℕ) (x : ℕ → ℕ → ℝ) : List ℝ :=
  (List.range (rows * cols)).map fun k => x (k / cols) (k % cols)

/-- The argument record of the two halves, src/leg/sims_flanagan.cpp:487-497. -/
noncomputable def halfArgs (l : Leg ℝ) (us : List (V3 ℝ)) (x : RV ℝ) (m : ℝ) : GradArgs :=
  { us := us, rvs := x, ms := m, c := l.maxThrust * (l.tof / l.nseg), a := 1 / l.isp / G0,
    dt := l.tof / l.nseg, maxThrust := l.maxThrust, mu := l.mu }

/-- `compute_mc_grad`, src/leg/sims_flanagan.cpp:484-519. The iterator ranges
`[begin, begin + 3 nseg_fwd)` and `[begin + 3 nseg_fwd, end)` are the first `nseg_fwd` triples and the
rest. -/
noncomputable def mcGrad (l : Leg ℝ) : List ℝ × List ℝ × List ℝ :=
  let F := halfArgs l ((triples l.throttles).take l.nsegFwd) l.rvs l.ms
  let B := halfArgs l ((triples l.throttles).drop l.nsegFwd) l.rvf l.mf
  let fin : ℕ → ℕ → ℝ := fun r j =>
    if j < l.nsegFwd * 3 then F.grad φ Φ r j
    else if j < l.nseg * 3 then bckGrad φ Φ B r (j - l.nsegFwd * 3)
    else F.grad φ Φ r (l.nsegFwd * 3) / l.nseg * l.nsegFwd
      - bckGrad φ Φ B r ((l.nseg - l.nsegFwd) * 3) / l.nseg * (l.nseg - l.nsegFwd : ℕ)
  (flatten 7 7 (F.gradRvm φ Φ), flatten 7 7 (bckRvm φ Φ B), flatten 7 (l.nseg * 3 + 1) fin)

end
end Kep3.SF
