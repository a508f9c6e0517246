import Verif.SF.Model

/-!
# What a valid Sims-Flanagan leg is

Written from the documentation (pykep/docstrings.cpp:1540-1582 and the exception messages of
src/leg/sf_checks.cpp), independently of the checks in the model.
-/

namespace Kep3.SF

/-- A number, and not negative (NaN is not a number). -/
def nonneg : Dbl → Prop
  | .fin q => 0 ≤ q
  | .pinf => True
  | _ => False

/-- In the closed unit interval. -/
def inUnit (x : Dbl) : Prop := ∃ q : ℚ, x = .fin q ∧ 0 ≤ q ∧ q ≤ 1

/-- The documented constraints on the data of a leg. -/
structure ValidData (throttles : List Dbl) (tof maxThrust isp mu cut : Dbl) : Prop where
  three : ∃ n, throttles.length = 3 * n ∧ 0 < n
  tof : nonneg tof
  maxThrust : nonneg maxThrust
  isp : nonneg isp
  mu : nonneg mu
  cut : inUnit cut

/-- The leg's data are valid. -/
def Leg.Valid (l : Leg Dbl) : Prop :=
  ValidData l.throttles l.tof l.maxThrust l.isp l.mu l.cut

/-- The segment counters are right: one segment per throttle triple, the forward ones are the
(rounded) fraction `cut` of them and the backward ones the rest. -/
structure Leg.SegsOk (l : Leg Dbl) : Prop where
  nseg : l.throttles.length = 3 * l.nseg
  sum : l.nsegFwd + l.nsegBck = l.nseg
  fwd : ∀ q, l.cut = .fin q → ⌊(l.nseg : ℚ) * q⌋ ≤ (l.nsegFwd : ℤ) ∧ (l.nsegFwd : ℤ) ≤ ⌈(l.nseg : ℚ) * q⌉

/-- Arguments that are numbers (no NaN) and, for throttles, a vector of fewer than 2^32 entries and
in-range iterators. `set` is left out. -/
def Op.sane : Op → Prop
  | .tof x | .maxThrust x | .isp x | .mu x | .cut x => x.isNum
  | .throttles t => t.length < 2 ^ 32
  | .range t i1 i2 => i1 ≤ t.length ∧ i2 ≤ t.length ∧ t.length < 2 ^ 32
  | .set .. => False
  | _ => True

end Kep3.SF
