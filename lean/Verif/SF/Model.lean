import Verif.Dbl
import Verif.Mut
import Verif.V3

/-!
# `kep3::leg::sims_flanagan`: data members, checks and setters

Scalars are `Dbl` (NaN and infinities included) because this file is about which calls are accepted.
The numerical routines are in `Verif/SF/Flight.lean`.
-/

namespace Kep3.SF

open Kep3

/-- Data members of `sims_flanagan`, include/kep3/leg/sims_flanagan.hpp:121-142. The three segment
counters are C++ `unsigned` (32 bit), kept reduced modulo 2^32. The scalar type is a parameter. -/
@[ext] structure Leg (F : Type) where
  rvs : RV F
  ms : F
  throttles : List F
  rvf : RV F
  mf : F
  tof : F
  maxThrust : F
  isp : F
  mu : F
  cut : F
  nseg : ℕ
  nsegFwd : ℕ
  nsegBck : ℕ
  deriving DecidableEq

/-- `static_cast<unsigned>(size) / 3u`, src/leg/sims_flanagan.cpp:50,74,86,137. -/
def nsegOf (len : ℕ) : ℕ := (len % 2 ^ 32) / 3

/-- `static_cast<unsigned>(static_cast<double>(m_nseg) * m_cut)`, src/leg/sims_flanagan.cpp:51,75,87,
117,138; `fl` is the rounding of the product. -/
def nsegFwdOf (fl : ℚ → ℚ) (nseg : ℕ) (cut : Dbl) : Res ℕ :=
  (Dbl.natMul fl nseg cut).castUnsigned

/-- Unsigned subtraction `m_nseg - m_nseg_fwd`, src/leg/sims_flanagan.cpp:51,76,88,118,139. -/
def usub (a b : ℕ) : ℕ := (a + 2 ^ 32 - b) % 2 ^ 32

/-- `throw` if the condition holds. -/
def throwIf (c : Bool) (e : Exc) : Res Unit := if c then .err e else .ok ()

/-- `_check_tof`, src/leg/sf_checks.cpp:16-22. -/
def checkTof (tof : Dbl) : Res Unit := throwIf (tof.lt 0) .domainError
/-- `_check_throttles`, src/leg/sf_checks.cpp:23-33. -/
def checkThrottles (t : List Dbl) : Res Unit := do
  throwIf (t.length % 3 != 0) .logicError
  throwIf t.isEmpty .logicError
/-- `_check_max_thrust`, src/leg/sf_checks.cpp:34-40. -/
def checkMaxThrust (x : Dbl) : Res Unit := throwIf (x.lt 0) .domainError
/-- `_check_isp`, src/leg/sf_checks.cpp:41-46. -/
def checkIsp (x : Dbl) : Res Unit := throwIf (x.lt 0) .domainError
/-- `_check_mu`, src/leg/sf_checks.cpp:47-53. -/
def checkMu (x : Dbl) : Res Unit := throwIf (x.lt 0) .domainError
/-- `_check_cut`, src/leg/sf_checks.cpp:54-59. -/
def checkCut (x : Dbl) : Res Unit := throwIf (x.lt 0 || Dbl.lt 1 x) .domainError
/-- `_check_tol`, src/leg/sf_checks.cpp:60-65. -/
def checkTol (x : Dbl) : Res Unit := throwIf (x.le 0 || Dbl.lt 1 x) .domainError
/-- `_check_nseg`, src/leg/sf_checks.cpp:66-72 (the sum is an `unsigned` sum). -/
def checkNseg (n f b : ℕ) : Res Unit := throwIf ((f + b) % 2 ^ 32 != n) .logicError

/-- `_sanity_checks`, src/leg/sf_checks.cpp:73-83. -/
def sanityChecks (throttles : List Dbl) (tof maxThrust isp mu cut : Dbl) (n f b : ℕ) : Res Unit := do
  checkThrottles throttles
  checkTof tof
  checkMaxThrust maxThrust
  checkIsp isp
  checkMu mu
  checkCut cut
  checkNseg n f b

/-- Constructor, src/leg/sims_flanagan.cpp:44-54: the segment numbers are computed in the member
initialisers, before the checks. -/
def Leg.make (fl : ℚ → ℚ) (rvs : RV Dbl) (ms : Dbl) (throttles : List Dbl) (rvf : RV Dbl)
    (mf tof maxThrust isp mu cut : Dbl) : Res (Leg Dbl) := do
  let n := nsegOf throttles.length
  let f ← nsegFwdOf fl n cut
  let l : Leg Dbl := ⟨rvs, ms, throttles, rvf, mf, tof, maxThrust, isp, mu, cut, n, f, usub n f⟩
  sanityChecks l.throttles l.tof l.maxThrust l.isp l.mu l.cut l.nseg l.nsegFwd l.nsegBck
  return l

/-- Default member values, include/kep3/leg/sims_flanagan.hpp:121-142 (`pi/2` for the time of flight
replaced by a rational; only its sign matters here). -/
def Leg.default : Leg Dbl :=
  ⟨⟨⟨1, 0, 0⟩, ⟨0, 1, 0⟩⟩, 1, [0, 0, 0, 0, 0, 0], ⟨⟨0, 1, 0⟩, ⟨.fin (-1), 0, 0⟩⟩, 1,
    .fin (157 / 100), 1, 1, 1, .fin (1 / 2), 2, 1, 1⟩

/-- Recomputation of the segment numbers from the stored throttles,
src/leg/sims_flanagan.cpp:74-76, 86-88 and 137-139. -/
def updateSegs (fl : ℚ → ℚ) : Mut (Leg Dbl) Unit := do
  Mut.assign fun l => { l with nseg := nsegOf l.throttles.length }
  let f ← Mut.read fun l => nsegFwdOf fl l.nseg l.cut
  Mut.assign fun l => { l with nsegFwd := f }
  Mut.assign fun l => { l with nsegBck := usub l.nseg l.nsegFwd }

/-- `set_tof`, src/leg/sims_flanagan.cpp:57-61. -/
def setTof (x : Dbl) : Mut (Leg Dbl) Unit := do
  Mut.call (checkTof x)
  Mut.assign fun l => { l with tof := x }
/-- `set_rvs`, src/leg/sims_flanagan.cpp:62-65. -/
def setRvs (x : RV Dbl) : Mut (Leg Dbl) Unit := Mut.assign fun l => { l with rvs := x }
/-- `set_ms`, src/leg/sims_flanagan.cpp:66-69. -/
def setMs (x : Dbl) : Mut (Leg Dbl) Unit := Mut.assign fun l => { l with ms := x }
/-- `set_throttles(const std::vector<double> &)`, src/leg/sims_flanagan.cpp:70-77. -/
def setThrottles (fl : ℚ → ℚ) (t : List Dbl) : Mut (Leg Dbl) Unit := do
  Mut.call (checkThrottles t)
  Mut.assign fun l => { l with throttles := t }
  updateSegs fl
/-- `set_throttles(it1, it2)`, src/leg/sims_flanagan.cpp:78-89, for iterators at positions `i1`, `i2`
of a vector `t` that is not the leg's own (positions outside the vector: undefined behaviour of the
caller). -/
def setThrottlesRange (fl : ℚ → ℚ) (t : List Dbl) (i1 i2 : ℕ) : Mut (Leg Dbl) Unit := do
  Mut.call (if i1 ≤ t.length ∧ i2 ≤ t.length then .ok () else .ub)
  let d : Int := (i2 : Int) - i1
  Mut.call (throwIf (d.tmod 3 != 0 || decide (d ≤ 0)) .logicError)
  Mut.assign fun l => { l with throttles := (t.drop i1).take (i2 - i1) }
  updateSegs fl
/-- `set_rvf`, src/leg/sims_flanagan.cpp:90-93. -/
def setRvf (x : RV Dbl) : Mut (Leg Dbl) Unit := Mut.assign fun l => { l with rvf := x }
/-- `set_mf`, src/leg/sims_flanagan.cpp:94-97. -/
def setMf (x : Dbl) : Mut (Leg Dbl) Unit := Mut.assign fun l => { l with mf := x }
/-- `set_max_thrust`, src/leg/sims_flanagan.cpp:98-102. -/
def setMaxThrust (x : Dbl) : Mut (Leg Dbl) Unit := do
  Mut.call (checkMaxThrust x)
  Mut.assign fun l => { l with maxThrust := x }
/-- `set_isp`, src/leg/sims_flanagan.cpp:103-107. -/
def setIsp (x : Dbl) : Mut (Leg Dbl) Unit := do
  Mut.call (checkIsp x)
  Mut.assign fun l => { l with isp := x }
/-- `set_mu`, src/leg/sims_flanagan.cpp:108-112. -/
def setMu (x : Dbl) : Mut (Leg Dbl) Unit := do
  Mut.call (checkMu x)
  Mut.assign fun l => { l with mu := x }
/-- `set_cut`, src/leg/sims_flanagan.cpp:113-119. -/
def setCut (fl : ℚ → ℚ) (x : Dbl) : Mut (Leg Dbl) Unit := do
  Mut.call (checkCut x)
  Mut.assign fun l => { l with cut := x }
  let f ← Mut.read fun l => nsegFwdOf fl l.nseg l.cut
  Mut.assign fun l => { l with nsegFwd := f }
  Mut.assign fun l => { l with nsegBck := usub l.nseg l.nsegFwd }
/-- `set`, src/leg/sims_flanagan.cpp:120-140: the checks run on the data members, i.e. on the values
stored before the call, and the arguments are assigned afterwards without any check. -/
def setAll (fl : ℚ → ℚ) (rvs : RV Dbl) (ms : Dbl) (throttles : List Dbl) (rvf : RV Dbl)
    (mf tof maxThrust isp mu cut : Dbl) : Mut (Leg Dbl) Unit := do
  Mut.read fun l =>
    sanityChecks l.throttles l.tof l.maxThrust l.isp l.mu l.cut l.nseg l.nsegFwd l.nsegBck
  Mut.assign fun l => { l with rvs := rvs }
  Mut.assign fun l => { l with ms := ms }
  Mut.assign fun l => { l with throttles := throttles }
  Mut.assign fun l => { l with rvf := rvf }
  Mut.assign fun l => { l with mf := mf }
  Mut.assign fun l => { l with tof := tof }
  Mut.assign fun l => { l with maxThrust := maxThrust }
  Mut.assign fun l => { l with isp := isp }
  Mut.assign fun l => { l with mu := mu }
  Mut.assign fun l => { l with cut := cut }
  updateSegs fl

/-- The public mutating member functions. -/
inductive Op
  | tof (x : Dbl) | rvs (x : RV Dbl) | ms (x : Dbl) | throttles (t : List Dbl)
  | range (t : List Dbl) (i1 i2 : ℕ)
  | rvf (x : RV Dbl) | mf (x : Dbl) | maxThrust (x : Dbl) | isp (x : Dbl) | mu (x : Dbl)
  | cut (x : Dbl)
  | set (rvs : RV Dbl) (ms : Dbl) (throttles : List Dbl) (rvf : RV Dbl)
    (mf tof maxThrust isp mu cut : Dbl)

/-- Call one member function. -/
def Op.run (fl : ℚ → ℚ) : Op → Mut (Leg Dbl) Unit
  | .tof x => setTof x
  | .rvs x => setRvs x
  | .ms x => setMs x
  | .throttles t => setThrottles fl t
  | .range t i1 i2 => setThrottlesRange fl t i1 i2
  | .rvf x => setRvf x
  | .mf x => setMf x
  | .maxThrust x => setMaxThrust x
  | .isp x => setIsp x
  | .mu x => setMu x
  | .cut x => setCut fl x
  | .set a b c d e f g h i j => setAll fl a b c d e f g h i j

/-- A caller making a sequence of calls, catching exceptions and carrying on: `none` once undefined
behaviour has occurred. -/
def runOps (fl : ℚ → ℚ) : List Op → Leg Dbl → Option (Leg Dbl)
  | [], l => some l
  | op :: ops, l =>
    match op.run fl l with
    | (.ub, _) => none
    | (_, l') => runOps fl ops l'

/-- `serialize`, include/kep3/leg/sims_flanagan.hpp:102-119, writing: the members in archive order
(the throttle vector is one archive entry). -/
def Leg.save {F : Type} (l : Leg F) :
    RV F × F × List F × F × RV F × F × F × F × F × F × ℕ × ℕ × ℕ :=
  (l.rvs, l.ms, l.throttles, l.tof, l.rvf, l.mf, l.maxThrust, l.isp, l.mu, l.cut, l.nseg,
    l.nsegFwd, l.nsegBck)

/-- `serialize`, reading into an existing (default constructed) leg, same order. -/
def Leg.load {F : Type} (_old : Leg F)
    (a : RV F × F × List F × F × RV F × F × F × F × F × F × ℕ × ℕ × ℕ) : Leg F :=
  let (rvs, ms, th, tof, rvf, mf, mt, isp, mu, cut, n, f, b) := a
  { rvs := rvs, ms := ms, throttles := th, tof := tof, rvf := rvf, mf := mf, maxThrust := mt,
    isp := isp, mu := mu, cut := cut, nseg := n, nsegFwd := f, nsegBck := b }

end Kep3.SF
