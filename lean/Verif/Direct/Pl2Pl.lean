import Verif.Direct.P2P

/-!
# The direct planet-to-planet problem

`direct_pl2pl`, pykep/trajopt/_direct_pl2pl.py. The two planets are parameters: what `planet.eph` returns at an epoch in mjd2000
(or raises).
-/

namespace Kep3.Direct
open Real SF SFSpec

/-- The data members set by the constructor, _direct_pl2pl.py:79-99; `vinfs` and `vinff` in m/s. -/
structure Pl2Pl where
  leg : Leg ℝ
  pls : ℝ → Res (RV ℝ)
  plf : ℝ → Res (RV ℝ)
  t0Bounds : ℝ × ℝ
  tofBounds : ℝ × ℝ
  mfBounds : ℝ × ℝ
  vinfs : ℝ
  vinff : ℝ
  nseg : ℕ
  massScaling : ℝ
  rScaling : ℝ
  vScaling : ℝ

/-- The constructor turns the two relative velocities from km/s to m/s, _direct_pl2pl.py:93-94. -/
noncomputable def Pl2Pl.init (leg : Leg ℝ) (pls plf : ℝ → Res (RV ℝ)) (t0 tof mf : ℝ × ℝ) (vinfs vinff : ℝ) (nseg : ℕ) (m r v : ℝ) :
    Pl2Pl := ⟨leg, pls, plf, t0, tof, mf, vinfs * 1000, vinff * 1000, nseg, m, r, v⟩

/-- `[a + b for a, b in zip(v, l)]` given to a setter that wants three numbers (the conversion raises `TypeError`);
`l` is a slice of at most three numbers. -/
def zipAdd (v : V3 ℝ) : List ℝ → Res (V3 ℝ)
  | [a, b, c] => .ok ⟨v.x + a, v.y + b, v.z + c⟩
  | _ => .err .typeError

/-- `np.dot(l, v)` with a three-vector: numpy raises `ValueError` for other sizes. -/
def dot3 (l : List ℝ) (v : V3 ℝ) : Res ℝ :=
  match l with
  | [a, b, c] => .ok (a * v.x + b * v.y + c * v.z)
  | _ => .err .value

/-- `a[-1] += c` on a list. -/
noncomputable def addLast (c : ℝ) (a : List ℝ) : List ℝ := a.modify (a.length - 1) (· + c)

namespace Pl2Pl
noncomputable section
variable (φ : RV ℝ → ℝ → RV ℝ) (Φ : RV ℝ → ℝ → Matrix (Fin 6) (Fin 6) ℝ) (p : Pl2Pl)

/-- `get_bounds`, _direct_pl2pl.py:102-117. -/
def bounds : List ℝ × List ℝ :=
  ([p.t0Bounds.1, p.mfBounds.1] ++ List.replicate 3 (-p.vinfs) ++ List.replicate 3 (-p.vinff) ++
    (List.replicate p.nseg [-1, -1, -1]).flatten ++ [p.tofBounds.1],
   [p.t0Bounds.2, p.mfBounds.2] ++ List.replicate 3 p.vinfs ++ List.replicate 3 p.vinff ++
    (List.replicate p.nseg [1, 1, 1]).flatten ++ [p.tofBounds.2])

/-- `_set_leg_from_x`, _direct_pl2pl.py:119-129: the leg and the two planet states. -/
def setLeg (x : List ℝ) : Res (Leg ℝ × RV ℝ × RV ℝ) := do
  let x0 ← idx x 0
  let s ← p.pls x0
  let t ← last x
  let f ← p.plf (x0 + t)
  let vs ← zipAdd s.v (slice 2 5 x)
  let vf ← zipAdd f.v (slice 5 8 x)
  let l ← setTof (t * DAY2SEC) { p.leg with rvs := ⟨s.r, vs⟩, rvf := ⟨f.r, vf⟩ }
  let x1 ← idx x 1
  let l ← setThrottles (slice 8 (x.length - 1) x) { l with mf := x1 }
  return (l, s, f)

/-- `fitness`, _direct_pl2pl.py:132-159. -/
def fitness (x : List ℝ) : OptionT Res (List ℝ) := do
  let mf ← lift (idx x 1)
  let (l, _, _) ← lift (p.setLeg x)
  let d ← lift (computeMismatch (fun y t => some (φ y t)) l)
  let rv ← num d.1
  let cineq ← lift (throttleConstraints l)
  let x2 ← lift (idx x 2)
  let x3 ← lift (idx x 3)
  let x4 ← lift (idx x 4)
  let cs ← num (div? (x2 ^ 2 + x3 ^ 2 + x4 ^ 2 - p.vinfs ^ 2) (p.vScaling ^ 2))
  let x5 ← lift (idx x 5)
  let x6 ← lift (idx x 6)
  let x7 ← lift (idx x 7)
  let cf ← num (div? (x5 ^ 2 + x6 ^ 2 + x7 ^ 2 - p.vinff ^ 2) (p.vScaling ^ 2))
  let retval := [-mf] ++ list7 rv d.2 ++ (cineq ++ [cs] ++ [cf])
  let retval ← num (scale 0 1 p.massScaling retval)
  let retval ← num (scale 1 4 p.rScaling retval)
  let retval ← num (scale 4 7 p.vScaling retval)
  num (scale 7 8 p.massScaling retval)

/-- `np.dot(row[:3], v) - np.dot(row[3:6], r) * mu / norm(r) ** 3`, _direct_pl2pl.py:182-185, 197-198 and 209-210: the effect of the
motion of a planet. -/
def moved (mu : ℝ) (row : List ℝ) (s : RV ℝ) : OptionT Res ℝ := do
  let a ← lift (dot3 (slice 0 3 row) s.v)
  let b ← lift (dot3 (slice 3 6 row) s.r)
  let q ← num (div? (b * mu) (V3.norm s.r ^ 3))
  return a - q

/-- The loop over the position and velocity mismatches, _direct_pl2pl.py:175-200. -/
def gradRow (l : Leg ℝ) (s f : RV ℝ) (gs gf g : List ℝ) (retval : List ℝ) (i : ℕ) : OptionT Res (List ℝ) := do
  let sc := if i < 3 then p.rScaling else p.vScaling
  let xs ← lift (rowOf 7 7 gs i)
  let xf ← lift (rowOf 7 7 gf i)
  let ms ← moved l.mu xs s
  let mf ← moved l.mu xf f
  let t0 ← num ((div? (ms + mf) sc).bind fun v => div? v SEC2DAY)
  let retval := retval ++ [t0]
  let a ← lift (last xf)
  let a ← num (div? a sc)
  let retval := retval ++ [a]
  let vs ← num ((slice 3 6 xs).mapM fun v => div? v sc)
  let retval := retval ++ vs
  let vf ← num ((slice 3 6 xf).mapM fun v => div? v sc)
  let retval := retval ++ vf
  let th ← lift (rowOf 7 (3 * l.nseg + 1) g i)
  let th ← num (th.mapM fun v => div? v sc)
  let retval := retval ++ th
  let mf ← moved l.mu xf f
  let q ← num (div? mf sc)
  let retval := addLast q retval
  return mulLast DAY2SEC retval

/-- The loop over the mass mismatch, _direct_pl2pl.py:203-212. -/
def massRow (l : Leg ℝ) (f : RV ℝ) (gf g : List ℝ) (retval : List ℝ) (i : ℕ) : OptionT Res (List ℝ) := do
  let xf ← lift (rowOf 7 7 gf i)
  let a ← lift (last xf)
  let a ← num (div? a p.massScaling)
  let retval := retval ++ [a]
  let th ← lift (rowOf 7 (3 * l.nseg + 1) g i)
  let th ← num (th.mapM fun v => div? v p.massScaling)
  let retval := retval ++ th
  let mf ← moved l.mu xf f
  let q ← num (div? mf p.massScaling)
  let retval := addLast q retval
  return mulLast DAY2SEC retval

/-- `gradient`, _direct_pl2pl.py:164-222. -/
def gradient (x : List ℝ) : OptionT Res (List ℝ) := do
  let (l, s, f) ← lift (p.setLeg x)
  let (gs, gf, g) := mcGrad φ Φ l
  let tcg ← lift (tcGrad l)
  let o ← num (div? (-1) p.massScaling)
  let retval ← (List.range 6).foldlM (p.gradRow l s f gs gf g) [o]
  let retval ← (List.range' 6 1).foldlM (p.massRow l f gf g) retval
  let retval ← (List.range l.nseg).foldlM (fun retval i => do
    let row ← lift (rowOf l.nseg (3 * l.nseg) tcg i)
    return retval ++ slice (3 * i) (3 * i + 3) row) retval
  let x2 ← lift (idx x 2)
  let x3 ← lift (idx x 3)
  let x4 ← lift (idx x 4)
  let x5 ← lift (idx x 5)
  let x6 ← lift (idx x 6)
  let x7 ← lift (idx x 7)
  let retval := retval ++ [2 * x2, 2 * x3, 2 * x4, 2 * x5, 2 * x6, 2 * x7]
  let six ← num ((retval.drop (retval.length - 6)).mapM fun a => div? a (p.vScaling ^ 2))
  return retval.take (retval.length - 6) ++ six

/-- `gradient_sparsity`, _direct_pl2pl.py:224-247. -/
def sparsity : List (ℕ × ℕ) :=
  let dim := 9 + 3 * p.nseg
  let retval := [(0, 1)]
  let retval := (List.range' 1 6).foldl (fun r i => (List.range dim).foldl (fun r j => r ++ [(i, j)]) r) retval
  let retval := retval ++ [(7, 1)]
  let retval := (List.range' 8 (dim - 8)).foldl (fun r j => r ++ [(7, j)]) retval
  let retval := (List.range p.nseg).foldl
    (fun r i => r ++ [(8 + i, 3 * i + 8)] ++ [(8 + i, 3 * i + 9)] ++ [(8 + i, 3 * i + 10)]) retval
  let retval := (List.range' 2 3).foldl (fun r j => r ++ [(8 + p.nseg, j)]) retval
  (List.range' 5 3).foldl (fun r j => r ++ [(9 + p.nseg, j)]) retval

/-- `get_nec`, _direct_pl2pl.py:249-250. -/
def nec : ℕ := 7
/-- `get_nic`, _direct_pl2pl.py:252-253. -/
def nic : ℕ := p.nseg + 2

end
end Pl2Pl
end Kep3.Direct
