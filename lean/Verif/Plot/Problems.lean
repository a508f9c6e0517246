import Verif.Plot.Leg
import Verif.Plot.Orbit
import Verif.Direct.Pl2Pl
import Verif.Mga.Trajectory

/-!
# Plots and printed summaries of the trajectory problems

The methods `plot` and `pretty` of `direct_point2point`, `direct_pl2pl` and `mga`: the points given to matplotlib, divided by the
units, and the numbers printed, in exact real arithmetic. Colours, sizes and the text around the numbers are left out.
-/

namespace Kep3.Plot
open Kep3 Real V3 SF SFSpec

/-- The division of a position by the units, pykep/plot/_planet.py:33, pykep/plot/_lambert.py:74 and
pykep/plot/_sf_leg.py:98-101 and 164-167; a division by zero gives no number. -/
noncomputable def inUnits (units : ℝ) (r : V3 ℝ) : V3 (Option ℝ) := ⟨div? r.x units, div? r.y units, div? r.z units⟩

/-- The same for a position that may be NaN. -/
noncomputable def inUnits? (units : ℝ) : Option (V3 ℝ) → V3 (Option ℝ)
  | some r => inUnits units r
  | none => ⟨none, none, none⟩

/-- `add_planet`, pykep/plot/_planet.py:5-36, for a planet of which `e` is the state at the epoch. -/
noncomputable def addPlanet (e : Res (RV (Option ℝ))) (units : ℝ) : Res (V3 (Option ℝ)) := do
  let x ← e
  return ⟨x.r.x.bind (div? · units), x.r.y.bind (div? · units), x.r.z.bind (div? · units)⟩

/-! ## Direct transfers -/

/-- What `add_sf_leg` draws, pykep/plot/_sf_leg.py:76-78, 88-90, 98-101, 142-144, 154-156 and 165-167: the grid points of the two
passes and the points where the arcs start (the first points of `add_ballistic_arc`, pykep/plot/_ballistic.py:41-48). -/
structure LegPic where
  fwd : List (V3 (Option ℝ))
  bck : List (V3 (Option ℝ))
  fwdArcs : List (V3 (Option ℝ))
  bckArcs : List (V3 (Option ℝ))

/-- `add_sf_leg` with its units, pykep/plot/_sf_leg.py:6-188. -/
noncomputable def drawLeg (φ : RV ℝ → ℝ → Option (RV ℝ)) (l : Leg ℝ) (units : ℝ) (showMid showThr : Bool) : Res LegPic := do
  let (f, b) ← addSfLeg φ l showMid showThr
  return { fwd := f.grid.map (inUnits? units), bck := b.grid.map (inUnits? units)
           fwdArcs := f.arcs.map fun a => inUnits? units (a.1.map RV.r)
           bckArcs := b.arcs.map fun a => inUnits? units (a.1.map RV.r) }

/-- The two black dots, pykep/trajopt/_direct_point2point.py:240-241 and pykep/trajopt/_direct_pl2pl.py:327-328: the first
coordinate is divided by the astronomical unit, the others by the units. -/
noncomputable def marker (units : ℝ) (r : V3 ℝ) : V3 (Option ℝ) := ⟨div? r.x AU, div? r.y units, div? r.z units⟩

/-- What `direct_point2point.plot` draws. -/
structure P2PPic where
  start : V3 (Option ℝ)
  goal : V3 (Option ℝ)
  leg : LegPic

/-- `direct_point2point.plot`, pykep/trajopt/_direct_point2point.py:195-256. -/
noncomputable def plotP2P (φ : RV ℝ → ℝ → Option (RV ℝ)) (p : Direct.P2P) (x : List ℝ) (units : ℝ) (showMid showThr : Bool) :
    Res P2PPic := do
  let l ← p.setLeg x
  let leg ← drawLeg φ l units showMid showThr
  return ⟨marker units l.rvs.r, marker units l.rvf.r, leg⟩

/-- What `direct_pl2pl.plot` draws. -/
structure Pl2PlPic where
  start : V3 (Option ℝ)
  goal : V3 (Option ℝ)
  planetS : V3 (Option ℝ)
  orbitS : List (V3 (Option ℝ))
  planetF : V3 (Option ℝ)
  orbitF : List (V3 (Option ℝ))
  leg : LegPic

/-- `direct_pl2pl.plot`, pykep/trajopt/_direct_pl2pl.py:283-348. The planets and their orbits are drawn with the default units,
the astronomical unit; `orbS` and `orbF` are what `add_planet_orbit` draws of the two planets for given units. -/
noncomputable def plotPl2Pl (φ : RV ℝ → ℝ → Option (RV ℝ)) (orbS orbF : ℝ → Res (List (V3 (Option ℝ)))) (p : Direct.Pl2Pl)
    (x : List ℝ) (units : ℝ) (showMid showThr : Bool) : Res Pl2PlPic := do
  let (l, _, _) ← p.setLeg x
  let x0 ← Mga.idx x 0
  let t ← Direct.last x
  let ps ← addPlanet ((p.pls x0).bind fun s => .ok (spread (some s))) AU
  let os ← orbS AU
  let pf ← addPlanet ((p.plf (x0 + t)).bind fun s => .ok (spread (some s))) AU
  let of ← orbF AU
  let leg ← drawLeg φ l units showMid showThr
  return ⟨marker units l.rvs.r, marker units l.rvf.r, ps, os, pf, of, leg⟩

/-- The numbers printed by `direct_pl2pl.pretty`. -/
structure Pl2PlText where
  launch : ℝ
  arrival : ℝ
  tof : ℝ
  launchDv : ℝ
  launchVec : V3 ℝ
  arrivalDv : ℝ
  arrivalVec : V3 ℝ
  finalMass : ℝ
  leg : Leg ℝ

/-- `direct_pl2pl.pretty`, pykep/trajopt/_direct_pl2pl.py:255-281, before the numbers are turned to text. -/
noncomputable def prettyPl2Pl (p : Direct.Pl2Pl) (x : List ℝ) : Res Pl2PlText := do
  let (l, _, _) ← p.setLeg x
  let x0 ← Mga.idx x 0
  let t ← Direct.last x
  let x2 ← Mga.idx x 2
  let x3 ← Mga.idx x 3
  let x4 ← Mga.idx x 4
  let x5 ← Mga.idx x 5
  let x6 ← Mga.idx x 6
  let x7 ← Mga.idx x 7
  let x1 ← Mga.idx x 1
  return { launch := x0, arrival := x0 + t, tof := t
           launchDv := √(x2 ^ 2 + x3 ^ 2 + x4 ^ 2) / 1000, launchVec := ⟨x2 / 1000, x3 / 1000, x4 / 1000⟩
           arrivalDv := √(x5 ^ 2 + x6 ^ 2 + x7 ^ 2) / 1000, arrivalVec := ⟨x5 / 1000, x6 / 1000, x7 / 1000⟩
           finalMass := x1, leg := l }

/-! ## Multiple gravity assists -/

/-- What `mga.plot` draws: the planets at the encounters, their orbits and the arcs (`none`: NaN). The Sun is at the origin
(pykep/plot/__init__.py:36). -/
structure MgaPic where
  planets : List (V3 (Option ℝ))
  orbits : List (List (V3 (Option ℝ)))
  arcs : List (Option (List (V3 (Option ℝ))))

/-- One call of `add_lambert` by `mga.plot`, pykep/trajopt/_mga.py:497 and 500, with pykep/plot/_lambert.py:74. -/
noncomputable def mgaArc (units : ℝ) (L : Lambert) : Res (Option (List (V3 (Option ℝ)))) := do
  let pts ← addLambert L 60 0
  return pts.map (List.map (inUnits units))

/-- One turn of the loop over the planets, pykep/trajopt/_mga.py:489-491. -/
noncomputable def mgaPlanet (nan : Res (List (V3 (Option ℝ)))) (seq : List Udpla) (ep : List ℝ) (units : ℝ) (N i : ℕ) :
    Res (V3 (Option ℝ) × List (V3 (Option ℝ))) := do
  let u ← Mga.idx seq i
  let t ← Mga.idx ep i
  let a ← addPlanet (Planet.eph u t) units
  let o ← addPlanetOrbit nan u none units N
  return (a, o)

/-- The arcs, pykep/trajopt/_mga.py:495-500. -/
noncomputable def mgaArcs (units : ℝ) (legs : List Lambert) (ids : List ℤ) : Res (List (Option (List (V3 (Option ℝ))))) :=
  if ids.length = 0 then legs.mapM (mgaArc units)
  else ids.mapM fun k => do
    let L ← pyIndex legs k
    mgaArc units L

/-- `mga.plot`, pykep/trajopt/_mga.py:462-502. -/
noncomputable def plotMga (nan : Res (List (V3 (Option ℝ)))) (j : ℕ → Lambert.Junk) (p : Mga.Mga) (x : List ℝ) (units : ℝ) (N : ℕ)
    (ids : List ℤ) : OptionT Res MgaPic := do
  let d ← Mga.computeDvs j p x
  let pl ← Mga.lift ((List.range p.seq.length).mapM (mgaPlanet nan p.seq d.ep units N))
  let arcs ← Mga.lift (mgaArcs units d.legs ids)
  return ⟨pl.map Prod.fst, pl.map Prod.snd, arcs⟩

/-- What `mga.pretty` prints of a fly-by, pykep/trajopt/_mga.py:448-451. -/
structure FlybyText where
  name : String
  epoch : ℝ
  dv : ℝ

/-- What `mga.pretty` prints. -/
structure MgaText where
  names : List String
  depName : String
  depEpoch : ℝ
  depVel : Option (V3 ℝ)
  hyperbolic : ℝ
  launch : ℝ
  flybys : List FlybyText
  arrName : String
  arrEpoch : ℝ
  arrVel : Option (V3 ℝ)
  arrival : ℝ
  tofs : List ℝ
  total : ℝ

/-- The list without its first and last items, `l[1:-1]`, pykep/trajopt/_mga.py:448. -/
def inner {α : Type} (l : List α) : List α := l.dropLast.drop 1

/-- `l[-1]`. -/
def lastOf {α : Type} (l : List α) : Res α := if l.length = 0 then .err .index else Mga.idx l (l.length - 1)

/-- The loop over the fly-bys, pykep/trajopt/_mga.py:448-451. -/
def flybyTexts (seq : List Udpla) (ep dvs : List ℝ) : Res (List FlybyText) :=
  ((inner seq).zip ((inner ep).zip dvs)).mapM fun q => do
    let n ← Planet.getName q.1
    return ⟨n, q.2.1, q.2.2⟩

/-- `mga.pretty`, pykep/trajopt/_mga.py:427-460. -/
noncomputable def prettyMga (j : ℕ → Lambert.Junk) (p : Mga.Mga) (x : List ℝ) : OptionT Res MgaText := do
  let d ← Mga.computeDvs j p x
  let names ← Mga.lift (p.seq.mapM Planet.getName)
  let u0 ← Mga.lift (Mga.idx p.seq 0)
  let n0 ← Mga.lift (Planet.getName u0)
  let t0 ← Mga.lift (Mga.idx d.ep 0)
  let l0 ← Mga.lift (Mga.idx d.legs 0)
  let v0 ← Mga.lift (Mga.idx l0.v0 0)
  let fb ← Mga.lift (flybyTexts p.seq d.ep d.flyby)
  let uf ← Mga.lift (lastOf p.seq)
  let nf ← Mga.lift (Planet.getName uf)
  let tf ← Mga.lift (lastOf d.ep)
  let lf ← Mga.lift (lastOf d.legs)
  let v1 ← Mga.lift (Mga.idx lf.v1 0)
  return ⟨names, n0, t0, v0, d.launchTot, d.launch, fb, nf, tf, v1, d.arrival, d.T, d.launch + d.flyby.sum + d.arrival⟩

end Kep3.Plot
