import Verif.V3
import Mathlib.Analysis.SpecialFunctions.Log.Basic

/-!
# Specification of a Sims-Flanagan leg

Independent of the loops of the model: what it means to fly a leg.
-/

namespace Kep3.SFSpec

open Kep3

/-- The throttle vector `[u0x, u0y, u0z, u1x, ...]` as a list of vectors. -/
def triples {F : Type} : List F → List (V3 F)
  | x :: y :: z :: r => ⟨x, y, z⟩ :: triples r
  | _ => []

/-- What can happen to the spacecraft: a ballistic arc of some (signed) duration or an impulse with
some throttle. -/
inductive Event
  | arc (t : ℝ)
  | impulse (u : V3 ℝ)

/-- The impulses of a sequence of events starting at time `t0`, each with the time at which it
happens. -/
noncomputable def timeline : ℝ → List Event → List (ℝ × V3 ℝ)
  | _, [] => []
  | t0, .arc t :: es => timeline (t0 + t) es
  | t0, .impulse u :: es => (t0, u) :: timeline t0 es

/-- The time at the end of a sequence of events starting at `t0`. -/
noncomputable def endTime : ℝ → List Event → ℝ
  | t0, [] => t0
  | t0, .arc t :: es => endTime (t0 + t) es
  | t0, .impulse _ :: es => endTime t0 es

/-- State and mass. -/
structure Body where
  rv : RV ℝ
  m : ℝ

/-- A reversible ballistic motion: `φ x t = some y` says that from state `x`, after time `t`, the
state is `y`. Going back undoes it, and an arc is its two halves. (True of the local flow of any
autonomous differential equation.) -/
structure LocalFlow (φ : RV ℝ → ℝ → Option (RV ℝ)) : Prop where
  back : ∀ x t y, φ x t = some y → φ y (-t) = some x
  half : ∀ x t z, φ x t = some z ↔ ∃ y, φ x (t / 2) = some y ∧ φ y (t / 2) = some z

/-- An impulse: position kept; the momentum change `mref (v⁺ - v⁻)` is thrust times duration `c`
along the throttle `u`; the masses obey Tsiolkovsky's equation with exhaust velocity `veff`. -/
structure Impulse (c veff mref : ℝ) (u : V3 ℝ) (a b : Body) : Prop where
  pos : b.rv.r = a.rv.r
  mom : mref • (b.rv.v - a.rv.v) = c • u
  ma : 0 < a.m
  mb : 0 < b.m
  rocket : veff * Real.log (a.m / b.m) = V3.norm (b.rv.v - a.rv.v)

/-- A segment: half a segment of ballistic flight, an impulse in the middle, half a segment of
ballistic flight. `before` says whether the reference mass of the impulse is the mass before it
(forward segments) or after it (backward segments). -/
def Segment (φ : RV ℝ → ℝ → Option (RV ℝ)) (dt c veff : ℝ) (before : Bool) (u : V3 ℝ) (a b : Body) :
    Prop :=
  ∃ p q : Body, φ a.rv (dt / 2) = some p.rv ∧ p.m = a.m ∧
    Impulse c veff (if before then p.m else q.m) u p q ∧
    φ q.rv (dt / 2) = some b.rv ∧ b.m = q.m

/-- Segments flown one after the other. -/
def Flight (φ : RV ℝ → ℝ → Option (RV ℝ)) (dt c veff : ℝ) : List (Bool × V3 ℝ) → Body → Body → Prop
  | [], a, b => a = b
  | (k, u) :: us, a, b => ∃ x, Segment φ dt c veff k u a x ∧ Flight φ dt c veff us x b

end Kep3.SFSpec
