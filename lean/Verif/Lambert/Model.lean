import Verif.Elements.Model
import Verif.Dbl
import Mathlib.Analysis.SpecialFunctions.Arcosh
import Mathlib.Analysis.SpecialFunctions.Arsinh
import Mathlib.Algebra.Order.Floor.Ring

/-!
# The Lambert solver

`src/lambert_problem.cpp`, exact real arithmetic. `none` stands for NaN or an infinity. What the code does after it has
met such a value is left open where it matters (`Junk`). Memory exhaustion (for 2^32 revolutions) is not modelled.
-/

namespace Kep3
open Real V3

namespace Lambert

/-- `std::acosh`. -/
noncomputable def acosh? (x : ℝ) : Option ℝ := if 1 ≤ x then some (arcosh x) else none
/-- `std::log`. -/
noncomputable def log? (x : ℝ) : Option ℝ := if 0 < x then some (log x) else none

/-- The unit vectors along and across the two positions. -/
structure Frame where
  irs : V3 ℝ
  irf : V3 ℝ
  its : V3 ℝ
  itf : V3 ℝ

/-- The geometry of the transfer; no frame if the positions are collinear. -/
structure Geom where
  c : ℝ
  s : ℝ
  Rs : ℝ
  Rf : ℝ
  lam : ℝ
  frame : Option Frame

/-- The unit normal `ih`, src/lambert_problem.cpp:63-66. -/
noncomputable def normal (r0 r1 : V3 ℝ) : Option (V3 ℝ × V3 ℝ × V3 ℝ) := do
  let irs ← vdiv? r0 (norm r0)
  let irf ← vdiv? r1 (norm r1)
  let ih := cross irs irf
  let ih ← vdiv? ih (norm ih)
  return (irs, irf, ih)

/-- The sign changes, src/lambert_problem.cpp:81-92. -/
noncomputable def flip (ihz : Option ℝ) (cw : Bool) : ℝ :=
  let e : ℝ := if ihz.any (· < 0) then -1 else 1
  if cw then -e else e

/-- The geometry, src/lambert_problem.cpp:57-92. The argument of the square root is never negative
(`lambda2_nonneg`). -/
noncomputable def geom (r0 r1 : V3 ℝ) (cw : Bool) : Res Geom :=
  let c := norm (r1 - r0)
  let Rs := norm r0
  let Rf := norm r1
  let s := (c + Rs + Rf) / 2
  let n := normal r0 r1
  if n.any (fun n => n.2.2.z = 0) then .err .domainError
  else
    let lambda2 := 1 - c / s
    let e := flip (n.map fun n => n.2.2.z) cw
    .ok { c := c, s := s, Rs := Rs, Rf := Rf, lam := e * √lambda2,
          frame := do
            let (irs, irf, ih) ← n
            let its := cross ih irs
            let itf := cross ih irf
            let its ← vdiv? its (norm its)
            let itf ← vdiv? itf (norm itf)
            return ⟨irs, irf, e • its, e • itf⟩ }

/-- The coefficients of the series in `hypergeometricF`, src/lambert_problem.cpp:286. -/
noncomputable def hypC (z : ℝ) : ℕ → ℝ
  | 0 => 1
  | j + 1 => hypC z j * (3 + j) * (1 + j) / (2.5 + j) * z / (j + 1)

/-- The partial sums in `hypergeometricF`, src/lambert_problem.cpp:287-289. -/
noncomputable def hypS (z : ℝ) : ℕ → ℝ
  | 0 => 1
  | j + 1 => hypS z j + hypC z (j + 1)

open Classical in
/-- `hypergeometricF`, src/lambert_problem.cpp:277-294: the partial sum at the first term that is small enough; `none` if
there is none and the loop does not end. -/
noncomputable def hypergeometricF (z tol : ℝ) : Option ℝ :=
  if h : ∃ j, ¬ tol < |hypC z (j + 1)| then some (hypS z (Nat.find h + 1)) else none

/-- `x2tof2`, src/lambert_problem.cpp:219-239. -/
noncomputable def x2tof2 (lam x : ℝ) (N : ℕ) : Option ℝ := do
  let a ← div? 1 (1 - x * x)
  if 0 < a then
    let alfa := 2 * (← acos? x)
    let beta := 2 * (← asin? (← sqrt? (lam * lam / a)))
    let beta := if lam < 0 then -beta else beta
    return a * √a * ((alfa - sin alfa) - (beta - sin beta) + 2 * π * N) / 2
  else
    let alfa := 2 * (← acosh? x)
    let beta := 2 * arsinh (← sqrt? (-lam * lam / a))
    let beta := if lam < 0 then -beta else beta
    return -a * (← sqrt? (-a)) * ((beta - sinh beta) - (alfa - sinh alfa)) / 2

/-- The branch of `x2tof` near the parabola, src/lambert_problem.cpp:251-261. -/
noncomputable def x2tofBattin (lam x : ℝ) (N : ℕ) : Option ℝ := do
  let K := lam * lam
  let E := x * x - 1
  let rho := |E|
  let z ← sqrt? (1 + K * E)
  let eta := z - lam * x
  let S1 := 0.5 * (1 - lam - x * eta)
  let Q ← hypergeometricF S1 1e-11
  let Q := 4 / 3 * Q
  return (eta * eta * eta * Q + 4 * lam * eta) / 2 + (← div? (N * π) (rho ^ (1.5 : ℝ)))

/-- The branch of `x2tof` away from the parabola, src/lambert_problem.cpp:251-254, 262-274. -/
noncomputable def x2tofLancaster (lam x : ℝ) (N : ℕ) : Option ℝ := do
  let K := lam * lam
  let E := x * x - 1
  let rho := |E|
  let z ← sqrt? (1 + K * E)
  let y := √rho
  let g := x * z - lam * E
  let d ← if E < 0 then (acos? g).map fun l => N * π + l else log? (y * (z - lam * x) + g)
  div? (x - lam * z - (← div? d y)) E

/-- `x2tof`, src/lambert_problem.cpp:241-275. -/
noncomputable def x2tof (lam x : ℝ) (N : ℕ) : Option ℝ :=
  let dist := |x - 1|
  if dist < 0.2 ∧ 0.01 < dist then x2tof2 lam x N
  else if dist < 0.01 then x2tofBattin lam x N
  else x2tofLancaster lam x N

/-- `dTdx`, src/lambert_problem.cpp:206-217. -/
noncomputable def dTdx (lam x T : ℝ) : Option (ℝ × ℝ × ℝ) := do
  let l2 := lam * lam
  let l3 := l2 * lam
  let umx2 := 1 - x * x
  let y ← sqrt? (1 - l2 * umx2)
  let y2 := y * y
  let y3 := y2 * y
  let i ← div? 1 umx2
  let DT := i * (3 * T * x - 2 + (← div? (2 * l3 * x) y))
  let DDT := i * (3 * T + 5 * x * DT + (← div? (2 * (1 - l2) * l3) y3))
  let q ← div? (6 * (1 - l2) * l2 * l3 * x) y3
  let DDDT := i * (7 * x * DDT + 8 * DT - (← div? q y2))
  return (DT, DDT, DDDT)

/-- One step of `householder`, src/lambert_problem.cpp:195-199. -/
noncomputable def householderStep (lam T x0 : ℝ) (N : ℕ) : Option ℝ := do
  let tof ← x2tof lam x0 N
  let (DT, DDT, DDDT) ← dTdx lam x0 tof
  let delta := tof - T
  let DT2 := DT * DT
  let q ← div? (delta * (DT2 - delta * DDT / 2)) (DT * (DT2 - delta * DDT) + DDDT * delta * delta / 6)
  return x0 - q

/-- What the code does after a value is not a finite number: the number of further iterations of the Householder loop
(for each solution), and whether such a minimum time of flight compares greater than the requested one. -/
structure Junk where
  extra : ℕ → ℕ
  dec : Bool

/-- The loop of `householder` with `n` iterations left, src/lambert_problem.cpp:194-203: the last iterate and the
number of iterations. -/
noncomputable def householder (lam T : ℝ) (N : ℕ) (eps : ℝ) (extra : ℕ) : ℕ → ℝ → Option ℝ × ℕ
  | 0, x0 => (some x0, 0)
  | n + 1, x0 =>
    match householderStep lam T x0 N with
    | none => (none, 1 + min n extra)
    | some xnew =>
      if eps < |x0 - xnew| then
        let r := householder lam T N eps extra n xnew
        (r.1, r.2 + 1)
      else (some xnew, 1)

/-- `householder` on an initial guess that may not be a number; the limit is 15 iterations in all calls,
src/lambert_problem.cpp:150, 157, 161, 185-204. -/
noncomputable def householderN (lam T : ℝ) (N : ℕ) (eps : ℝ) (extra : ℕ) (x0 : Option ℝ) : Option ℝ × ℕ :=
  match x0 with
  | some x0 => householder lam T N eps extra 15 x0
  | none => (none, 1 + min 14 extra)

/-- How the Halley iterations end: with a time of flight, certainly with NaN, or with a value that is not a finite
number. -/
inductive Tmin
  | val (T : ℝ)
  | nan
  | junk

/-- The Halley iterations for the minimum time of flight, with `n` iterations left before `it > 12`,
src/lambert_problem.cpp:105-124: the last `T_min`. Left of -1 the time of flight is the logarithm of a negative number
(line 271), and NaN is kept by the further iterations. -/
noncomputable def halley (lam : ℝ) (N : ℕ) : ℕ → ℝ → ℝ → Tmin
  | n, xOld, T =>
    match dTdx lam xOld T with
    | none => .junk
    | some (DT, DDT, DDDT) =>
      match if DT ≠ 0 then (div? (DT * DDT) (DDT * DDT - DT * DDDT / 2)).map fun q => xOld - q else some xOld with
      | none => .junk
      | some xNew =>
        if |xOld - xNew| < 1e-13 then .val T
        else match n with
          | 0 => .val T
          | n + 1 =>
            match x2tof lam xNew N with
            | none => if xNew < -1 then .nan else .junk
            | some T => halley lam N n xNew T

/-- `T00`, `T1`, src/lambert_problem.cpp:101, 103. -/
noncomputable def T00 (lam : ℝ) : Option ℝ := do
  return (← acos? lam) + lam * (← sqrt? (1 - lam * lam))
noncomputable def T1 (lam : ℝ) : ℝ := 2 / 3 * (1 - lam * (lam * lam))

/-- The maximum number of revolutions, src/lambert_problem.cpp:99-131. -/
noncomputable def nmax (j : Junk) (lam T : ℝ) (multiRevs : ℕ) : Res ℕ :=
  if 2 ^ 32 ≤ T / π then .ub
  else
    let N := min multiRevs ⌊T / π⌋₊
    if 0 < N then
      let T0 := (T00 lam).map fun t => t + N * π
      let N' := match T0 with
        | none => N
        | some T0 =>
          if T < T0 then
            match halley lam N 13 0 T0 with
            | .junk => if j.dec then N - 1 else N
            | .nan => N
            | .val Tmin => if T < Tmin then N - 1 else N
          else N
      .ok (min multiRevs N')
    else .ok N

/-- The initial guess without revolutions, src/lambert_problem.cpp:142-148. -/
noncomputable def guess0 (lam T : ℝ) : Option ℝ := do
  let T00 ← T00 lam
  let T1 := T1 lam
  if T00 ≤ T then (div? (-(T - T00)) (T - T00 + 4))
  else if T ≤ T1 then
    (div? (T1 * (T1 - T)) (2 / 5 * (1 - lam * lam * (lam * (lam * lam))) * T)).map (· + 1)
  else do
    let l ← log? (← div? T1 T00)
    let e ← div? 0.69314718055994529 l
    let b ← div? T T00
    return b ^ e - 1

/-- The initial guess left of the minimum, src/lambert_problem.cpp:155-156. -/
noncomputable def guessL (T : ℝ) (i : ℕ) : Option ℝ := do
  let tmp := (← div? (i * π + π) (8 * T)) ^ (2 / 3 : ℝ)
  div? (tmp - 1) (tmp + 1)
/-- The initial guess right of the minimum, src/lambert_problem.cpp:159-160. -/
noncomputable def guessR (T : ℝ) (i : ℕ) : Option ℝ := do
  let tmp := (← div? (8 * T) (i * π)) ^ (2 / 3 : ℝ)
  div? (tmp - 1) (tmp + 1)

/-- The two solutions with `i + 1` revolutions, src/lambert_problem.cpp:153-162. -/
noncomputable def multi (j : Junk) (lam T : ℝ) (i : ℕ) : List (Option ℝ × ℕ) :=
  [householderN lam T (i + 1) 1e-8 (j.extra (2 * i + 1)) (guessL T (i + 1)),
   householderN lam T (i + 1) 1e-8 (j.extra (2 * i + 2)) (guessR T (i + 1))]

/-- All values of the iteration variable with their numbers of iterations, src/lambert_problem.cpp:139-162. -/
noncomputable def solutions (j : Junk) (lam T : ℝ) (Nmax : ℕ) : List (Option ℝ × ℕ) :=
  householderN lam T 0 1e-5 (j.extra 0) (guess0 lam T) :: (List.range Nmax).flatMap (multi j lam T)

/-- The terminal velocities, src/lambert_problem.cpp:165-182. -/
noncomputable def velocities (g : Geom) (mu x : ℝ) : Option (V3 ℝ × V3 ℝ) := do
  let gamma ← sqrt? (mu * g.s / 2)
  let rho ← div? (g.Rs - g.Rf) g.c
  let sigma ← sqrt? (1 - rho * rho)
  let lambda2 := g.lam * g.lam
  let y ← sqrt? (1 - lambda2 + lambda2 * x * x)
  let vrs ← div? (gamma * ((g.lam * y - x) - rho * (g.lam * y + x))) g.Rs
  let vrf ← div? (-gamma * ((g.lam * y - x) + rho * (g.lam * y + x))) g.Rf
  let vt := gamma * sigma * (y + g.lam * x)
  let vts ← div? vt g.Rs
  let vtf ← div? vt g.Rf
  let f ← g.frame
  return (vrs • f.irs + vts • f.its, vrf • f.irf + vtf • f.itf)

end Lambert

/-- The data members, include/kep3/lambert_problem.hpp:94-104. -/
structure Lambert where
  r0 : V3 ℝ
  r1 : V3 ℝ
  tof : ℝ
  mu : ℝ
  v0 : List (Option (V3 ℝ))
  v1 : List (Option (V3 ℝ))
  iters : List ℕ
  x : List (Option ℝ)
  s : ℝ
  c : ℝ
  lam : ℝ
  Nmax : ℕ
  hasConverged : Bool
  multiRevs : ℕ

namespace Lambert

/-- The constructor, src/lambert_problem.cpp:39-183. With both positions at the origin `T` is an infinity or NaN, and so
its conversion to an integer (line 99) is undefined. -/
noncomputable def make (j : Junk) (r0 r1 : V3 ℝ) (tof mu : ℝ) (cw : Bool) (multiRevs : ℕ) : Res Lambert :=
  if tof ≤ 0 then .err .domainError
  else if mu ≤ 0 then .err .domainError
  else do
    let g ← geom r0 r1 cw
    if g.s = 0 then .ub
    else do
      let T := √(2 * mu / g.s / g.s / g.s) * tof
      let N ← nmax j g.lam T multiRevs
      let sol := solutions j g.lam T N
      let vel := sol.map fun p => p.1.bind (velocities g mu)
      return { r0 := r0, r1 := r1, tof := tof, mu := mu, v0 := vel.map (Option.map Prod.fst),
               v1 := vel.map (Option.map Prod.snd), iters := sol.map Prod.snd, x := sol.map Prod.fst,
               s := g.s, c := g.c, lam := g.lam, Nmax := N, hasConverged := true, multiRevs := multiRevs }

end Lambert
end Kep3
