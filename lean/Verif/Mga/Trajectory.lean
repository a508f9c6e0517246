import Verif.Mga.Encoding
import Verif.Planet.Model
import Verif.Lambert.Props63

/-!
# The MGA trajectory: impulses, objectives and the planet made of it

`pykep/trajopt/_mga.py`, exact real arithmetic. The computations are in `OptionT Res`: an exception, or `none` as soon as a NaN
or an infinity is met (what the code does from there on is not modelled).
-/

namespace Kep3.Mga
open Real V3

/-- A call that may raise. -/
def lift {α : Type} (r : Res α) : OptionT Res α := OptionT.lift r
/-- A value that may be no number. -/
def num {α : Type} (o : Option α) : OptionT Res α := OptionT.mk (.ok o)

/-- The data members used below, pykep/trajopt/_mga.py:152-165. -/
structure Mga where
  seq : List Udpla
  tof : ℝ
  vinf : ℝ
  multiObjective : Bool
  enc : Enc
  orbitInsertion : Bool
  eTarget : ℝ
  rpTarget : ℝ
  commonMu : ℝ

/-- `_n_legs`, pykep/trajopt/_mga.py:164. -/
def Mga.nLegs (p : Mga) : ℕ := p.seq.length - 1

/-- `numpy.cumsum`, starting from `acc`. -/
def cumsum (acc : ℝ) : List ℝ → List ℝ
  | [] => []
  | a :: l => (acc + a) :: cumsum (acc + a) l

/-- The ephemerides at the encounters, pykep/trajopt/_mga.py:300-303. -/
def ephs (seq : List Udpla) (ep : List ℝ) : OptionT Res (List (RV ℝ)) :=
  (List.range seq.length).mapM fun i => do
    let u ← lift (idx seq i)
    let t ← lift (idx ep i)
    let x ← lift (Planet.eph u t)
    num (nums x)

/-- The Lambert problems, pykep/trajopt/_mga.py:306-316. `j i` is the behaviour of the `i`-th one on NaN. -/
noncomputable def lamberts (j : ℕ → Lambert.Junk) (n : ℕ) (mu : ℝ) (rv : List (RV ℝ)) (T : List ℝ) : OptionT Res (List Lambert) :=
  (List.range n).mapM fun i => do
    let a ← lift (idx rv i)
    let b ← lift (idx rv (i + 1))
    let t ← lift (idx T i)
    lift (Lambert.make (j i) a.r b.r (t * DAY2SEC) mu false 0)

/-- `lp.v0[0]`, `lp.v1[0]`: the velocity without revolutions. -/
def first (l : List (Option (V3 ℝ))) : OptionT Res (V3 ℝ) := do
  let v ← lift (idx l 0)
  num v

/-- The fly-by impulses, pykep/trajopt/_mga.py:320-324. -/
noncomputable def flybys (seq : List Udpla) (rv : List (RV ℝ)) (lps : List Lambert) : OptionT Res (List ℝ) :=
  (List.range (lps.length - 1)).mapM fun i => do
    let l ← lift (idx lps i)
    let m ← lift (idx lps (i + 1))
    let b ← lift (idx rv (i + 1))
    let u ← lift (idx seq (i + 1))
    let vi ← first l.v1
    let vo ← first m.v0
    lift (fbDvPl (vi - b.v) (vo - b.v) u)

/-- The insertion impulse at the pericentre, pykep/trajopt/_mga.py:330-341. -/
noncomputable def insertion (mu rp e dv : ℝ) : Option ℝ := do
  let q ← div? (2 * mu) rp
  let a ← sqrt? (dv * dv + q)
  let k ← div? mu rp
  let b ← sqrt? (q - k * (1 - e))
  return |a - b|

/-- The result of `_compute_dvs`, pykep/trajopt/_mga.py:342. -/
structure Dvs where
  launch : ℝ
  flyby : List ℝ
  arrival : ℝ
  legs : List Lambert
  launchTot : ℝ
  ep : List ℝ
  T : List ℝ

/-- `_compute_dvs` after the decoding, pykep/trajopt/_mga.py:296-342. -/
noncomputable def fly (j : ℕ → Lambert.Junk) (p : Mga) (t0 : ℝ) (T : List ℝ) : OptionT Res Dvs := do
  let ep := cumsum 0 (t0 :: T)
  let rv ← ephs p.seq ep
  let lps ← lamberts j p.nLegs p.commonMu rv T
  let fb ← flybys p.seq rv lps
  let s ← lift (idx rv 0)
  let l0 ← lift (idx lps 0)
  let vs ← first l0.v0
  let launchTot := norm (s.v - vs)
  let f ← lift (idx rv (rv.length - 1))
  let lf ← lift (idx lps (lps.length - 1))
  let vf ← first lf.v1
  let arr := norm (f.v - vf)
  let arrival ← if p.orbitInsertion then do
      let u ← lift (idx p.seq (p.seq.length - 1))
      let mu ← lift (Planet.getMuSelf u)
      num (insertion mu p.rpTarget p.eTarget arr)
    else pure arr
  return ⟨max 0 (launchTot - p.vinf), fb, arrival, lps, launchTot, ep, T⟩

/-- `_compute_dvs`, pykep/trajopt/_mga.py:283-342. -/
noncomputable def computeDvs (j : ℕ → Lambert.Junk) (p : Mga) (x : List ℝ) : OptionT Res Dvs := do
  let T ← OptionT.mk (decodeTofs p.enc p.tof p.nLegs x)
  let x0 ← lift (idx x 0)
  fly j p x0 T

/-- `fitness`, pykep/trajopt/_mga.py:345-356. -/
noncomputable def fitness (j : ℕ → Lambert.Junk) (p : Mga) (x : List ℝ) : OptionT Res (List ℝ) := do
  let d ← computeDvs j p x
  let T ← match p.enc with
    | .direct => pure (x.drop 1).sum
    | .alpha => lift (idx x 1)
    | .eta => do
      let y ← lift (eta2direct p.enc p.tof x)
      pure (y.drop 1).sum
  let dv := d.launch + d.flyby.sum + d.arrival
  return if p.multiObjective then [dv, T] else [dv]

/-- The length of the bounds vectors (`bounds_eq` in `Verif.Mga.Problem`). -/
def Mga.dim (p : Mga) : ℕ := match p.enc with
  | .alpha => p.nLegs + 2
  | _ => p.nLegs + 1

/-- `to_planet`, pykep/trajopt/_mga.py:416-425: the legs and the epochs handed to `mga_udpla`. -/
noncomputable def toPlanet (j : ℕ → Lambert.Junk) (p : Mga) (x : List ℝ) : OptionT Res (List Lambert × List ℝ) :=
  if x.length ≠ p.dim then lift (.err .value)
  else do
    let d ← computeDvs j p x
    return (d.legs, d.ep)

/-- `bisect.bisect_left(a, t, lo, hi)` of the Python library. -/
noncomputable def bisect (a : List ℝ) (t : ℝ) (lo hi : ℕ) : ℕ :=
  if lo < hi then
    let mid := (lo + hi) / 2
    if a.getD mid 0 < t then bisect a t (mid + 1) hi else bisect a t lo mid
  else lo
termination_by hi - lo
decreasing_by all_goals omega

/-- `l[i - 1]`, which for `i = 0` is the last item. -/
def idxPred {α : Type} (l : List α) (i : ℕ) : Res α := if i = 0 then idx l (l.length - 1) else idx l (i - 1)

/-- `mga_udpla.eph`, pykep/trajopt/_mga.py:376-411. -/
noncomputable def eph (sv : Solver) (p : Mga) (legs : List Lambert) (ep : List ℝ) (t : ℝ) : OptionT Res (RV ℝ) := do
  let s ← lift (idx ep 0)
  if t < s then lift (.err .value)
  else do
    let f ← lift (idx ep (ep.length - 1))
    if f < t then lift (.err .value)
    else if t = s then do
      let l ← lift (idx legs 0)
      let v ← first l.v0
      return ⟨l.r0, v⟩
    else do
      let i := bisect ep t 0 ep.length
      let l ← lift (idxPred legs i)
      let v ← first l.v0
      let e ← lift (idxPred ep i)
      let u ← lift (idx p.seq 0)
      let mu ← lift (Planet.getMuCentralBody u)
      OptionT.mk (propagateLagrangian sv ⟨l.r0, v⟩ ((t - e) * DAY2SEC) mu)

end Kep3.Mga
