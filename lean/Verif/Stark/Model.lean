/-
`kep3::stark_problem` (include/kep3/stark_problem.hpp, src/stark_problem.cpp).

The two Taylor integrators are heyoka's.  What the class uses of them is modelled as `Integ`: the
tolerance (fixed at construction), the parameters, the time and the state, all of them in plain
arrays that the class writes through `get_pars_data`, `get_state_data` and `set_time`.
`propagate_until` is a parameter (`Env`) and may be anything, including failures that leave
the integrator in any state; it is assumed to depend on nothing but tolerance, parameters,
time and state (heyoka's dense output and step-size records are write-only for it).
-/
import Verif.Basic
import Verif.Mut
import Mathlib.Data.Fin.VecNotation
import Mathlib.Logic.Function.Basic

namespace Kep3.Stark

/-- A copy of a `heyoka::taylor_adaptive<double>` with `n` state variables and the parameters
`par[0..4]` of `stark_dyn` (src/ta/stark.cpp 47-50). -/
structure Integ (F : Type) (n : ℕ) where
  tol : F
  pars : Fin 5 → F
  time : F
  state : Fin n → F

/-- What comes from outside: doubles `F` and the integrators. -/
structure Env (F : Type) where
  zero : F
  /-- `== 0` on doubles -/
  isZero : F → Bool
  /-- `get_ta_stark(tol)` and `get_ta_stark_var(tol)`: as they are in the caches (C39: they
  depend on the tolerance only) -/
  fresh : F → Integ F 7
  freshVar : F → Integ F 77
  /-- `propagate_until(t)`: whether the outcome is `time_limit`, final time and final state, from
  tolerance, parameters, time and state -/
  run : F → (Fin 5 → F) → F → (Fin 7 → F) → F → Bool × F × (Fin 7 → F)
  runVar : F → (Fin 5 → F) → F → (Fin 77 → F) → F → Bool × F × (Fin 77 → F)

variable {F : Type}

/-- Data members, include/kep3/stark_problem.hpp 66-71. -/
structure Prob (F : Type) where
  mu : F
  veff : F
  tol : F
  ta : Integ F 7
  taVar : Integ F 77
  varIc : Fin 70 → F

/-- Writing one parameter through `get_pars_data() + i`. -/
def Integ.setPar {n : ℕ} (a : Integ F n) (i : Fin 5) (x : F) : Integ F n :=
  { a with pars := Function.update a.pars i x }

/-- `std::copy(thrust.begin(), thrust.end(), get_pars_data() + 2)`, src/stark_problem.cpp 47, 70. -/
def Integ.setThrust {n : ℕ} (a : Integ F n) (u : Fin 3 → F) : Integ F n :=
  ((a.setPar 2 (u 0)).setPar 3 (u 1)).setPar 4 (u 2)

/-- Constructor, src/stark_problem.cpp 27-38.  (Copying the 70 last of the 77 state variables.) -/
def make (E : Env F) (mu veff tol : F) : Prob F where
  mu := mu
  veff := veff
  tol := tol
  ta := ((E.fresh tol).setPar 0 mu).setPar 1 veff
  taVar := ((E.freshVar tol).setPar 0 mu).setPar 1 veff
  varIc i := (E.freshVar tol).state ⟨7 + i, by omega⟩

/-- `propagate`, src/stark_problem.cpp 40-58. -/
def propagate (E : Env F) (x : Fin 7 → F) (u : Fin 3 → F) (tof : F) : Mut (Prob F) (Fin 7 → F) := do
  if E.isZero (x 6) then
    Mut.call (.err .domainError)
  Mut.assign fun p => { p with ta := p.ta.setThrust u }
  Mut.assign fun p => { p with ta := { p.ta with time := E.zero } }
  Mut.assign fun p => { p with ta := { p.ta with state := x } }
  let out ← Mut.read fun p => .ok (E.run p.ta.tol p.ta.pars p.ta.time p.ta.state tof)
  Mut.assign fun p => { p with ta := { p.ta with time := out.2.1, state := out.2.2 } }
  if out.1 = false then
    Mut.call (.err .domainError)
  Mut.read fun p => .ok p.ta.state

/-- The initial conditions of the variational integrator: the state, then the 70 variational
variables, src/stark_problem.cpp 73-74. -/
def withIc (x : Fin 7 → F) (ic : Fin 70 → F) (k : Fin 77) : F :=
  if h : k.1 < 7 then x ⟨k, h⟩ else ic ⟨k - 7, by omega⟩

/-- `std::copy(src + a, src + b, dst + d)`; undefined beyond the ends of the arrays. -/
def copySeg {n m : ℕ} (src : Fin n → F) (a b d : ℕ) (dst : Fin m → F) : Res (Fin m → F) :=
  if h : a ≤ b ∧ b ≤ n ∧ d + (b - a) ≤ m then
    .ok fun k => if hk : d ≤ k.1 ∧ k.1 < d + (b - a) then src ⟨a + (k.1 - d), by omega⟩ else dst k
  else .ub

/-- The loop that copies the sensitivities, src/stark_problem.cpp 67-68, 83-88; `n` passes. -/
def copySens (zero : F) (st : Fin 77 → F) (n : ℕ) : Res ((Fin 49 → F) × (Fin 21 → F)) :=
  (List.range n).foldlM (init := (fun _ => zero, fun _ => zero)) fun d i => do
    let dxdx ← copySeg st (7 + 10 * i) (7 + 10 * i + 7) (7 * i) d.1
    let dxdu ← copySeg st (14 + 10 * i) (14 + 10 * i + 3) (3 * i) d.2
    return (dxdx, dxdu)

/-- `propagate_var`, src/stark_problem.cpp 60-90 (the state is printed on failure, 78). -/
def propagateVar (E : Env F) (x : Fin 7 → F) (u : Fin 3 → F) (tof : F) :
    Mut (Prob F) ((Fin 7 → F) × (Fin 49 → F) × (Fin 21 → F)) := do
  if E.isZero (x 6) then
    Mut.call (.err .domainError)
  Mut.assign fun p => { p with taVar := p.taVar.setThrust u }
  Mut.assign fun p => { p with taVar := { p.taVar with time := E.zero } }
  Mut.assign fun p => { p with taVar := { p.taVar with state := withIc x p.varIc } }
  let out ← Mut.read fun p => .ok (E.runVar p.taVar.tol p.taVar.pars p.taVar.time p.taVar.state tof)
  Mut.assign fun p => { p with taVar := { p.taVar with time := out.2.1, state := out.2.2 } }
  if out.1 = false then
    Mut.call (.err .domainError)
  let sens ← Mut.read fun p => copySens E.zero p.taVar.state 7
  Mut.read fun p => .ok (fun i => p.taVar.state ⟨i, by omega⟩, sens.1, sens.2)

/-- `set_mu`, src/stark_problem.cpp 114-119. -/
def setMu (mu : F) (p : Prob F) : Prob F :=
  { p with mu := mu, ta := p.ta.setPar 0 mu, taVar := p.taVar.setPar 0 mu }

/-- `set_veff`, src/stark_problem.cpp 120-125. -/
def setVeff (veff : F) (p : Prob F) : Prob F :=
  { p with veff := veff, ta := p.ta.setPar 1 veff, taVar := p.taVar.setPar 1 veff }

/-- A call of a member function that changes the object. -/
inductive Op (F : Type)
  | setMu (mu : F)
  | setVeff (veff : F)
  | propagate (x : Fin 7 → F) (u : Fin 3 → F) (tof : F)
  | propagateVar (x : Fin 7 → F) (u : Fin 3 → F) (tof : F)

/-- What a call leaves behind (also when it throws), src/stark_problem.cpp 40-125. -/
def Op.exec (E : Env F) (p : Prob F) : Op F → Prob F
  | .setMu mu => Stark.setMu mu p
  | .setVeff veff => Stark.setVeff veff p
  | .propagate x u tof => (Stark.propagate E x u tof p).2
  | .propagateVar x u tof => (Stark.propagateVar E x u tof p).2

end Kep3.Stark
