import Verif.SF.Model
import Verif.HF.Model
import Verif.Stark.Model

/-!
# Serialization

The `serialize` members of the classes, as the list of members they hand to the archive, run once for writing and once for
reading, and the pickling of Python objects and of planets on top of them. An archive is a list of bytes. How Boost writes
doubles, integers and Booleans, and how heyoka writes integrators and compiled functions, comes from outside (`Codec`), with
the assumption that reading gives back what was written; sequences and strings are written as a count and the elements.
Headers, versions and pointer tracking of Boost archives are left out.
-/

namespace Kep3.Archive

/-- Bytes of an archive. -/
abbrev Bytes := List UInt8

/-- How values of a type are written and read. `ok` are the values that the C++ type can hold. -/
structure Codec (α : Type) where
  save : α → Bytes
  load : Bytes → Option (α × Bytes)
  ok : α → Prop
  law : ∀ x, ok x → ∀ rest, load (save x ++ rest) = some (x, rest)

namespace Codec
variable {α β : Type}

/-- One after the other. -/
def prod (a : Codec α) (b : Codec β) : Codec (α × β) where
  save x := a.save x.1 ++ b.save x.2
  load bs := do let (x, bs) ← a.load bs; let (y, bs) ← b.load bs; return ((x, y), bs)
  ok x := a.ok x.1 ∧ b.ok x.2
  law x h rest := by
    rw [List.append_assoc, a.law _ h.1]
    simp [b.law _ h.2]

/-- A type with the same members. -/
def iso (a : Codec α) (f : α → β) (g : β → α) (h : ∀ y, f (g y) = y) : Codec β where
  save y := a.save (g y)
  load bs := (a.load bs).map fun p => (f p.1, p.2)
  ok y := a.ok (g y)
  law y hy rest := by rw [a.law _ hy]; simp [h]

/-- Reading `n` elements. -/
def loadN (a : Codec α) : ℕ → Bytes → Option (List α × Bytes)
  | 0, bs => some ([], bs)
  | n + 1, bs => do
    let (x, bs) ← a.load bs
    let (xs, bs) ← loadN a n bs
    return (x :: xs, bs)

theorem loadN_law (a : Codec α) (xs : List α) (h : ∀ x ∈ xs, a.ok x) (rest : Bytes) :
    loadN a xs.length (xs.flatMap a.save ++ rest) = some (xs, rest) := by
  induction xs with
  | nil => rfl
  | cons x xs ih =>
    have := ih fun y hy => h y (List.mem_cons_of_mem _ hy)
    simp [loadN, List.flatMap_cons, List.append_assoc, a.law _ (h x List.mem_cons_self), this]

/-- `std::vector` and `std::string`: the count and the elements. -/
def vector (cnt : Codec ℕ) (a : Codec α) : Codec (List α) where
  save xs := cnt.save xs.length ++ xs.flatMap a.save
  load bs := do let (n, bs) ← cnt.load bs; loadN a n bs
  ok xs := cnt.ok xs.length ∧ ∀ x ∈ xs, a.ok x
  law xs h rest := by
    rw [List.append_assoc, cnt.law _ h.1]
    simp [loadN_law a xs h.2]

/-- `std::array`. -/
def array (n : ℕ) (a : Codec α) : Codec (Fin n → α) where
  save x := (List.ofFn x).flatMap a.save
  load bs := do
    let (xs, bs) ← loadN a n bs
    if h : xs.length = n then some (fun i => xs[i], bs) else none
  ok x := ∀ i, a.ok (x i)
  law x h rest := by
    have := loadN_law a (List.ofFn x) (by simpa [List.mem_ofFn] using h) rest
    rw [List.length_ofFn] at this
    simp [this]

/-- Three numbers. -/
def v3 (a : Codec α) : Codec (V3 α) :=
  (a.prod (a.prod a)).iso (fun p => ⟨p.1, p.2.1, p.2.2⟩) (fun v => (v.x, v.y, v.z)) (fun _ => rfl)
/-- Position and velocity. -/
def rv (a : Codec α) : Codec (RV α) :=
  (a.v3.prod a.v3).iso (fun p => ⟨p.1, p.2⟩) (fun v => (v.r, v.v)) (fun _ => rfl)
/-- Position, velocity and mass: `std::array<double, 7>`. -/
def st (a : Codec α) : Codec (HF.St α) :=
  (a.rv.prod a).iso (fun p => ⟨p.1, p.2⟩) (fun v => (v.rv, v.m)) (fun _ => rfl)

end Codec

/-- A statement `ar & m_x;` of a `serialize` member: how the member is read off an object of class `S` and written to it. -/
structure Member (S : Type) where
  α : Type
  codec : Codec α
  get : S → α
  set : α → S → S

/-- `serialize` called by an output archive. -/
def save {S : Type} (ms : List (Member S)) (s : S) : Bytes := ms.flatMap fun m => m.codec.save (m.get s)

/-- `serialize` called by an input archive, on the object `old`. -/
def load {S : Type} : List (Member S) → S → Bytes → Option (S × Bytes)
  | [], old, bs => some (old, bs)
  | m :: ms, old, bs => do
    let (x, bs) ← m.codec.load bs
    load ms (m.set x old) bs

/-- What Boost and heyoka provide. -/
structure Prims (F : Type) where
  dbl : Codec F
  bool : Codec Bool
  char : Codec Char
  /-- `unsigned` -/
  u32 : Codec ℕ
  /-- `std::int64_t` -/
  i64 : Codec Int
  /-- sizes -/
  cnt : Codec ℕ
  /-- integrators and compiled functions of heyoka -/
  ta : Codec (Stark.Integ F 7)
  taVar : Codec (Stark.Integ F 77)
  taHf : Codec (HF.Integ F)
  llvm : Codec String

variable {F : Type} (P : Prims F)

/-- Strings. -/
def Prims.str : Codec String :=
  (Codec.vector P.cnt P.char).iso String.ofList String.toList (fun _ => String.ofList_toList)

/-! ## The classes -/

/-- `epoch::save`/`load`, include/kep3/epoch.hpp:235-247. -/
def epochMembers : List (Member Int) := [⟨Int, P.i64, id, fun x _ => x⟩]

/-- Members of `keplerian`, include/kep3/udpla/keplerian.hpp:29-38. -/
@[ext] structure Keplerian (F : Type) where
  refEpoch : Int
  name : String
  muCentralBody : F
  muSelf : F
  radius : F
  safeRadius : F
  period : F
  ellipse : Bool
  posVel0 : RV F
  kepF : Fin 6 → F

/-- `keplerian::serialize`, include/kep3/udpla/keplerian.hpp:42-55. -/
def keplerianMembers : List (Member (Keplerian F)) :=
  [⟨Int, P.i64, Keplerian.refEpoch, fun x s => { s with refEpoch := x }⟩,
   ⟨String, P.str, Keplerian.name, fun x s => { s with name := x }⟩,
   ⟨F, P.dbl, Keplerian.muCentralBody, fun x s => { s with muCentralBody := x }⟩,
   ⟨F, P.dbl, Keplerian.muSelf, fun x s => { s with muSelf := x }⟩,
   ⟨F, P.dbl, Keplerian.radius, fun x s => { s with radius := x }⟩,
   ⟨F, P.dbl, Keplerian.safeRadius, fun x s => { s with safeRadius := x }⟩,
   ⟨F, P.dbl, Keplerian.period, fun x s => { s with period := x }⟩,
   ⟨Bool, P.bool, Keplerian.ellipse, fun x s => { s with ellipse := x }⟩,
   ⟨F, P.dbl, Keplerian.safeRadius, fun x s => { s with safeRadius := x }⟩,
   ⟨RV F, P.dbl.rv, Keplerian.posVel0, fun x s => { s with posVel0 := x }⟩,
   ⟨Fin 6 → F, P.dbl.array 6, Keplerian.kepF, fun x s => { s with kepF := x }⟩]

/-- Members of `jpl_lp`, include/kep3/udpla/jpl_lp.hpp:37-43. -/
@[ext] structure JplLp (F : Type) where
  elements : Fin 6 → F
  elementsDot : Fin 6 → F
  name : String
  muCentralBody : F
  muSelf : F
  radius : F
  safeRadius : F

/-- `jpl_lp::serialize`, include/kep3/udpla/jpl_lp.hpp:46-56. -/
def jplMembers : List (Member (JplLp F)) :=
  [⟨Fin 6 → F, P.dbl.array 6, JplLp.elements, fun x s => { s with elements := x }⟩,
   ⟨Fin 6 → F, P.dbl.array 6, JplLp.elementsDot, fun x s => { s with elementsDot := x }⟩,
   ⟨String, P.str, JplLp.name, fun x s => { s with name := x }⟩,
   ⟨F, P.dbl, JplLp.muCentralBody, fun x s => { s with muCentralBody := x }⟩,
   ⟨F, P.dbl, JplLp.muSelf, fun x s => { s with muSelf := x }⟩,
   ⟨F, P.dbl, JplLp.radius, fun x s => { s with radius := x }⟩,
   ⟨F, P.dbl, JplLp.safeRadius, fun x s => { s with safeRadius := x }⟩]

/-- Members of `vsop2013::impl`, src/udpla/vsop2013.cpp:78-82: a compiled function (named), the address of its entry
point, parameter, name and threshold. -/
@[ext] structure Vsop (F : Type) where
  state : String
  evalF : String
  mu : F
  plName : String
  thresh : F

/-- `impl::save`, src/udpla/vsop2013.cpp:100-106. -/
def vsopSave (s : Vsop F) : Bytes :=
  P.llvm.save s.state ++ (P.dbl.save s.mu ++ (P.str.save s.plName ++ P.dbl.save s.thresh))

/-- `impl::load`, src/udpla/vsop2013.cpp:107-115; `jit` is `jit_lookup("eval_f")`. -/
def vsopLoad (jit : String → String) (bs : Bytes) : Option (Vsop F × Bytes) := do
  let (state, bs) ← P.llvm.load bs
  let (mu, bs) ← P.dbl.load bs
  let (plName, bs) ← P.str.load bs
  let (thresh, bs) ← P.dbl.load bs
  return (⟨state, jit state, mu, plName, thresh⟩, bs)

/-- Members of `lambert_problem`, include/kep3/lambert_problem.hpp:94-104. -/
@[ext] structure Lambert (F : Type) where
  r0 : V3 F
  r1 : V3 F
  tof : F
  mu : F
  v0 : List (V3 F)
  v1 : List (V3 F)
  iters : List ℕ
  x : List F
  s : F
  c : F
  lambda : F
  Nmax : ℕ
  hasConverged : Bool
  multiRevs : ℕ

/-- `lambert_problem::serialize`, include/kep3/lambert_problem.hpp:75-92. -/
def lambertMembers : List (Member (Lambert F)) :=
  [⟨V3 F, P.dbl.v3, Lambert.r0, fun x s => { s with r0 := x }⟩,
   ⟨V3 F, P.dbl.v3, Lambert.r1, fun x s => { s with r1 := x }⟩,
   ⟨F, P.dbl, Lambert.tof, fun x s => { s with tof := x }⟩,
   ⟨F, P.dbl, Lambert.mu, fun x s => { s with mu := x }⟩,
   ⟨List (V3 F), Codec.vector P.cnt P.dbl.v3, Lambert.v0, fun x s => { s with v0 := x }⟩,
   ⟨List (V3 F), Codec.vector P.cnt P.dbl.v3, Lambert.v1, fun x s => { s with v1 := x }⟩,
   ⟨List ℕ, Codec.vector P.cnt P.u32, Lambert.iters, fun x s => { s with iters := x }⟩,
   ⟨List F, Codec.vector P.cnt P.dbl, Lambert.x, fun x s => { s with x := x }⟩,
   ⟨F, P.dbl, Lambert.s, fun x s => { s with s := x }⟩,
   ⟨F, P.dbl, Lambert.c, fun x s => { s with c := x }⟩,
   ⟨F, P.dbl, Lambert.lambda, fun x s => { s with lambda := x }⟩,
   ⟨List ℕ, Codec.vector P.cnt P.u32, Lambert.iters, fun x s => { s with iters := x }⟩,
   ⟨ℕ, P.u32, Lambert.Nmax, fun x s => { s with Nmax := x }⟩,
   ⟨Bool, P.bool, Lambert.hasConverged, fun x s => { s with hasConverged := x }⟩,
   ⟨ℕ, P.u32, Lambert.multiRevs, fun x s => { s with multiRevs := x }⟩]

/-- `stark_problem::serialize`, include/kep3/stark_problem.hpp:55-63 (`m_var_ic` has always 70 elements, so no count). -/
def starkMembers : List (Member (Stark.Prob F)) :=
  [⟨F, P.dbl, Stark.Prob.mu, fun x s => { s with mu := x }⟩,
   ⟨F, P.dbl, Stark.Prob.veff, fun x s => { s with veff := x }⟩,
   ⟨F, P.dbl, Stark.Prob.tol, fun x s => { s with tol := x }⟩,
   ⟨Stark.Integ F 7, P.ta, Stark.Prob.ta, fun x s => { s with ta := x }⟩,
   ⟨Stark.Integ F 77, P.taVar, Stark.Prob.taVar, fun x s => { s with taVar := x }⟩,
   ⟨Fin 70 → F, P.dbl.array 70, Stark.Prob.varIc, fun x s => { s with varIc := x }⟩]

/-- `sims_flanagan::serialize`, include/kep3/leg/sims_flanagan.hpp:104-119. -/
def sfMembers : List (Member (SF.Leg F)) :=
  [⟨RV F, P.dbl.rv, SF.Leg.rvs, fun x s => { s with rvs := x }⟩,
   ⟨F, P.dbl, SF.Leg.ms, fun x s => { s with ms := x }⟩,
   ⟨List F, Codec.vector P.cnt P.dbl, SF.Leg.throttles, fun x s => { s with throttles := x }⟩,
   ⟨F, P.dbl, SF.Leg.tof, fun x s => { s with tof := x }⟩,
   ⟨RV F, P.dbl.rv, SF.Leg.rvf, fun x s => { s with rvf := x }⟩,
   ⟨F, P.dbl, SF.Leg.mf, fun x s => { s with mf := x }⟩,
   ⟨F, P.dbl, SF.Leg.maxThrust, fun x s => { s with maxThrust := x }⟩,
   ⟨F, P.dbl, SF.Leg.isp, fun x s => { s with isp := x }⟩,
   ⟨F, P.dbl, SF.Leg.mu, fun x s => { s with mu := x }⟩,
   ⟨F, P.dbl, SF.Leg.cut, fun x s => { s with cut := x }⟩,
   ⟨ℕ, P.u32, SF.Leg.nseg, fun x s => { s with nseg := x }⟩,
   ⟨ℕ, P.u32, SF.Leg.nsegFwd, fun x s => { s with nsegFwd := x }⟩,
   ⟨ℕ, P.u32, SF.Leg.nsegBck, fun x s => { s with nsegBck := x }⟩]

/-- `sims_flanagan_hf::serialize`, include/kep3/leg/sims_flanagan_hf.hpp:137-155 (`m_vars`, which the model of the leg does
not have, left out). -/
def hfMembers : List (Member (HF.Leg F)) :=
  [⟨HF.St F, P.dbl.st, HF.Leg.rvms, fun x s => { s with rvms := x }⟩,
   ⟨List F, Codec.vector P.cnt P.dbl, HF.Leg.throttles, fun x s => { s with throttles := x }⟩,
   ⟨List F, Codec.vector P.cnt P.dbl, HF.Leg.thrusts, fun x s => { s with thrusts := x }⟩,
   ⟨F, P.dbl, HF.Leg.tof, fun x s => { s with tof := x }⟩,
   ⟨HF.St F, P.dbl.st, HF.Leg.rvmf, fun x s => { s with rvmf := x }⟩,
   ⟨F, P.dbl, HF.Leg.maxThrust, fun x s => { s with maxThrust := x }⟩,
   ⟨F, P.dbl, HF.Leg.isp, fun x s => { s with isp := x }⟩,
   ⟨F, P.dbl, HF.Leg.mu, fun x s => { s with mu := x }⟩,
   ⟨F, P.dbl, HF.Leg.cut, fun x s => { s with cut := x }⟩,
   ⟨F, P.dbl, HF.Leg.tol, fun x s => { s with tol := x }⟩,
   ⟨ℕ, P.u32, HF.Leg.nseg, fun x s => { s with nseg := x }⟩,
   ⟨ℕ, P.u32, HF.Leg.nsegFwd, fun x s => { s with nsegFwd := x }⟩,
   ⟨ℕ, P.u32, HF.Leg.nsegBck, fun x s => { s with nsegBck := x }⟩,
   ⟨HF.Integ F, P.taHf, HF.Leg.tas, fun x s => { s with tas := x }⟩]

/-! ## Pickling -/

/-- A Python object as `pickle_setstate_wrapper` sees it. -/
inductive PyObj
  | bytes (b : Bytes)
  | other

/-- `pickle_getstate_wrapper`, pykep/common_utils.hpp:115-125. -/
def getstate {S : Type} (ms : List (Member S)) (s : S) : List PyObj := [.bytes (save ms s)]

/-- `pickle_setstate_wrapper`, pykep/common_utils.hpp:127-151: `x` is the default constructed object; a truncated archive
makes Boost throw. -/
def setstate {S : Type} (ms : List (Member S)) (x : S) (state : List PyObj) : Res S :=
  match state with
  | [.bytes b] =>
    match load ms x b with
    | some (s, _) => .ok s
    | none => .err .runtimeError
  | [.other] => .err .typeError
  | _ => .err .value

/-- The classes a planet can hold in Python: the four C++ ones, pykep/expose_udplas.cpp:28-71, and `python_udpla` around an
object, pykep/core.cpp:269. -/
inductive Udpla (F : Type)
  | null
  | keplerian (k : Keplerian F)
  | jplLp (j : JplLp F)
  | vsop (v : Vsop F)
  | python (obj : String)

/-- Writing a planet: the name under which the class was exported, and the object. `python_udpla` is not exported
(include/kep3/planet.hpp:288, udpla/keplerian.hpp:91, udpla/jpl_lp.hpp:85, udpla/vsop2013.hpp:53 are all the exports), and
Boost throws for a class that is not. -/
def planetSave : Udpla F → Res Bytes
  | .null => .ok (P.str.save "null_udpla")
  | .keplerian k => .ok (P.str.save "keplerian" ++ save (keplerianMembers P) k)
  | .jplLp j => .ok (P.str.save "jpl_lp" ++ save (jplMembers P) j)
  | .vsop v => .ok (P.str.save "vsop2013" ++ vsopSave P v)
  | .python _ => .err .runtimeError

/-- Reading a planet; `k0`, `j0` are the default constructed objects. -/
def planetLoad (jit : String → String) (k0 : Keplerian F) (j0 : JplLp F) (bs : Bytes) : Option (Udpla F × Bytes) := do
  let (cls, bs) ← P.str.load bs
  if cls = "null_udpla" then some (.null, bs)
  else if cls = "keplerian" then (load (keplerianMembers P) k0 bs).map fun p => (.keplerian p.1, p.2)
  else if cls = "jpl_lp" then (load (jplMembers P) j0 bs).map fun p => (.jplLp p.1, p.2)
  else if cls = "vsop2013" then (vsopLoad P jit bs).map fun p => (.vsop p.1, p.2)
  else none

end Kep3.Archive
