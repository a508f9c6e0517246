import Verif.Direct.Leg

/-!
# The direct point-to-point problem

`direct_point2point`, pykep/trajopt/_direct_point2point.py. The leg is the real-number leg of `Verif/SF/Flight.lean` and
`Verif/SF/GradModel.lean`; `φ` is the propagator, `Φ` its state transition matrix. Numpy's division by zero gives no number
here (it gives infinities or nan in numpy).
-/

namespace Kep3.Direct
open Real SF SFSpec

/-- The data members set by the constructor, _direct_point2point.py:77-94. -/
structure P2P where
  leg : Leg ℝ
  nseg : ℕ
  tofBounds : ℝ × ℝ
  mfBounds : ℝ × ℝ
  massScaling : ℝ
  rScaling : ℝ
  vScaling : ℝ

namespace P2P
noncomputable section
variable (φ : RV ℝ → ℝ → RV ℝ) (Φ : RV ℝ → ℝ → Matrix (Fin 6) (Fin 6) ℝ) (p : P2P)

/-- `_set_leg_from_x`, _direct_point2point.py:96-100. The members of the leg that it does not set keep the values of the
constructor, so the leg after the call depends on `x` only. -/
def setLeg (x : List ℝ) : Res (Leg ℝ) := do
  let t ← last x
  let l ← setTof (t * DAY2SEC) p.leg
  let x0 ← idx x 0
  setThrottles (slice 1 (x.length - 1) x) { l with mf := x0 }

/-- `get_bounds`, _direct_point2point.py:102-105. -/
def bounds : List ℝ × List ℝ :=
  ([p.mfBounds.1] ++ (List.replicate p.nseg [-1, -1, -1]).flatten ++ [p.tofBounds.1],
   [p.mfBounds.2] ++ (List.replicate p.nseg [1, 1, 1]).flatten ++ [p.tofBounds.2])

/-- `fitness`, _direct_point2point.py:108-123. -/
def fitness (x : List ℝ) : OptionT Res (List ℝ) := do
  let l ← lift (p.setLeg x)
  let x0 ← lift (idx x 0)
  let obj ← num (div? (-x0) p.massScaling)
  let d ← lift (computeMismatch (fun y t => some (φ y t)) l)
  let rv ← num d.1
  let cineq ← lift (throttleConstraints l)
  let retval := [obj] ++ list7 rv d.2 ++ cineq
  let retval ← num (scale 1 4 p.rScaling retval)
  let retval ← num (scale 4 7 p.vScaling retval)
  num (scale 7 8 p.massScaling retval)

/-- One turn of the loops of `gradient` over the rows of the mismatch gradient, _direct_point2point.py:138-142, 145-149 and
152-156. -/
def gradRow (gf g : List ℝ) (w : ℕ) (s : ℝ) (retval : List ℝ) (i : ℕ) : OptionT Res (List ℝ) := do
  let xf ← lift (rowOf 7 7 gf i)
  let a ← lift (last xf)
  let a ← num (div? a s)
  let th ← lift (rowOf 7 w g i)
  let th ← num (th.mapM fun v => div? v s)
  return mulLast DAY2SEC (retval ++ [a] ++ th)

/-- `gradient`, _direct_point2point.py:128-161. -/
def gradient (x : List ℝ) : OptionT Res (List ℝ) := do
  let l ← lift (p.setLeg x)
  let (_, gf, g) := mcGrad φ Φ l
  let w := 3 * l.nseg + 1
  let tcg ← lift (tcGrad l)
  let o ← num (div? (-1) p.massScaling)
  let retval ← (List.range' 0 3).foldlM (gradRow gf g w p.rScaling) [o]
  let retval ← (List.range' 3 3).foldlM (gradRow gf g w p.vScaling) retval
  let retval ← (List.range' 6 1).foldlM (gradRow gf g w p.massScaling) retval
  (List.range p.nseg).foldlM (fun retval i => do
    let row ← lift (rowOf l.nseg (3 * l.nseg) tcg i)
    return retval ++ slice (3 * i) (3 * i + 3) row) retval

/-- `gradient_sparsity`, _direct_point2point.py:163-177. -/
def sparsity : List (ℕ × ℕ) :=
  let dim := 2 + 3 * p.nseg
  let retval := (List.range' 1 7).foldl (fun r i => (List.range dim).foldl (fun r j => r ++ [(i, j)]) r) [(0, 0)]
  (List.range p.nseg).foldl (fun r i => r ++ [(8 + i, 3 * i + 1)] ++ [(8 + i, 3 * i + 2)] ++ [(8 + i, 3 * i + 3)]) retval

/-- `get_nec`, _direct_point2point.py:179-180. -/
def nec : ℕ := 7
/-- `get_nic`, _direct_point2point.py:182-183. -/
def nic : ℕ := p.nseg

end
end P2P
end Kep3.Direct
