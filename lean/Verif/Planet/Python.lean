import Verif.Planet.Props08

/-!
# C70: planets in Python

Construction of a `pykep.planet` from an object, `extract` and `is_`, copies, and the two-dimensional array returned by
`eph_v`. Trusted: pybind11 tries the constructors in the order of their definition and takes an instance of a Python class
derived from an exposed class for an instance of that class. Left out: the data of C++ objects, constructors of derived
classes that need arguments (`extract` calls `t()`), and metaclasses. A class derived from `pykep.planet` is a class of the
user here, as the test at pykep/python_udpla.cpp:34 is for the class itself.
-/

namespace Kep3.PyPlanet

/-- The C++ classes exposed in Python, pykep/expose_udplas.cpp:28-71. -/
inductive Cpp
  | null | keplerian | jplLp | vsop2013
  deriving DecidableEq

/-- Python classes: the exposed ones, classes derived from these in Python, `pykep.planet`, `object`, all others. -/
inductive Cls
  | cpp (k : Cpp)
  | derived (k : Cpp) (n : ℕ)
  | planet
  | object
  | user (n : ℕ)
  deriving DecidableEq

/-- A Python object: a class, or an instance, at an address, with or without a callable attribute `eph`. -/
inductive Obj
  | type (c : Cls)
  | inst (c : Cls) (addr : ℕ) (hasEph : Bool)
  | other
  deriving DecidableEq

/-- What a planet holds: a C++ object (a copy of the one given), or a reference to a Python object. -/
inductive Stored
  | cpp (k : Cpp)
  | py (o : Obj)
  deriving DecidableEq

/-- The constructor of `python_udpla`, pykep/python_udpla.cpp:31-43. -/
def pythonUdpla (o : Obj) : Res Stored :=
  match o with
  | .inst .planet _ _ => .err .typeError
  | .type _ => .err .typeError
  | .inst _ _ h => if h then .ok (.py o) else .err .notImplemented
  | .other => .err .notImplemented

/-- `planet(udpla)`: the constructors from C++ classes, pykep/expose_udplas.hpp:37, then the one from any object,
pykep/core.cpp:269. -/
def construct (o : Obj) : Res Stored :=
  match o with
  | .inst (.cpp k) _ _ => .ok (.cpp k)
  | .inst (.derived k _) _ _ => .ok (.cpp k)
  | _ => pythonUdpla o

/-- What `extract` returns: `None`, a reference to the C++ object in the planet, or the Python object. -/
inductive Ret
  | none
  | cpp (k : Cpp)
  | py (o : Obj)
  deriving DecidableEq

/-- `_cpp_extract`, pykep/common_utils.hpp:72-76, pykep/expose_udplas.hpp:40: the overload is chosen by the argument, whose
class is exposed or derived from an exposed one. -/
def cppExtract (p : Stored) (k : Cpp) : Ret :=
  match p with
  | .cpp k' => if k' = k then .cpp k else .none
  | .py _ => .none

/-- `hasattr(t, "_pykep_cpp_udpla")`, pykep/expose_udplas.hpp:34: attributes are inherited. -/
def cppMark : Cls → Option Cpp
  | .cpp k => some k
  | .derived k _ => some k
  | _ => Option.none

/-- `_planet_extract`, pykep/_patch_planet.py:10-66. -/
def extract (p : Stored) (t : Obj) : Res Ret :=
  match t with
  | .type c =>
    match cppMark c with
    | some k => .ok (cppExtract p k)
    | Option.none =>
      match p with
      | .py o@(.inst c' _ _) => .ok (if c' = c then .py o else .none)
      | _ => .ok .none
  | _ => .err .typeError

/-- `_planet_is`, pykep/_patch_planet.py:69-85. -/
def is_ (p : Stored) (t : Obj) : Res Bool := do
  let r ← extract p t
  return decide (r ≠ .none)

/-- `__copy__` and `__deepcopy__`, pykep/common_utils.hpp:59-69: the copy constructor of the C++ planet. -/
def deepcopy (p : Stored) : Stored := p

/-- The array returned by `eph_v`, pykep/core.cpp:211-233: `n` rows of six over the vector of values, whose length is not
compared with `6 n`. Reading a row beyond the vector is undefined. -/
def rowOf {α : Type} (vals : List α) (i : ℕ) : Res (List α) :=
  let r := (vals.drop (6 * i)).take 6
  if r.length = 6 then .ok r else .ub

/-! ## Properties -/

/-- **C70**: which objects make a planet, and the exceptions for the others. -/
theorem C70_construct (o : Obj) :
    (∃ p, construct o = .ok p) ↔
      ∃ c a h, o = .inst c a h ∧ c ≠ .planet ∧ ((cppMark c).isSome ∨ h = true) := by
  cases o with
  | type c => simp [construct, pythonUdpla]
  | other => simp [construct, pythonUdpla]
  | inst c a h => cases c <;> cases h <;> simp [construct, pythonUdpla, cppMark]

/-- **C70**: no undefined behaviour, and a planet or a class given instead of an instance is a `TypeError`. -/
theorem C70_construct_errors (o : Obj) : construct o ≠ .ub ∧
    ((∃ c, o = .type c) ∨ (∃ a h, o = .inst .planet a h) → construct o = .err .typeError) := by
  cases o with
  | type c => simp [construct, pythonUdpla]
  | other => simp [construct, pythonUdpla]
  | inst c a h => cases c <;> cases h <;> simp [construct, pythonUdpla]

/-- **C70, partial**: a planet made from an instance of a class of the user gives back that very instance for its class,
one made from an instance of an exposed class the C++ object for it, and `None` for every class other than that, except
classes derived from it in Python. Missing: `object` (`C70_object`) and derived classes (`C70_derived`). -/
theorem C70_extract_partial (o : Obj) (c : Cls) (a : ℕ) (h : Bool) (ho : o = .inst c a h) (p : Stored)
    (hp : construct o = .ok p) (hc : ∀ k n, c ≠ .derived k n) (t : Cls) (ht : ∀ k n, t ≠ .derived k n) :
    extract p (.type t) = .ok (if t = c then (match c with | .cpp k => .cpp k | _ => .py o) else .none) := by
  subst ho
  cases c with
  | cpp k =>
    simp only [construct, Res.ok.injEq] at hp; subst hp
    cases t <;> simp_all [extract, cppMark, cppExtract, eq_comm]
  | derived k n => exact absurd rfl (hc k n)
  | planet => simp [construct, pythonUdpla] at hp
  | object =>
    cases h <;> simp [construct, pythonUdpla] at hp
    subst hp
    cases t <;> simp_all [extract, cppMark, cppExtract]
  | user n =>
    cases h <;> simp [construct, pythonUdpla] at hp
    subst hp
    cases t <;> simp_all [extract, cppMark, cppExtract, eq_comm]

/-- **C70, negation** (documented at pykep/_patch_planet.py:18-20): `extract(object)` does not return a Python UDPLA. -/
theorem C70_object (n a : ℕ) : ∃ p, construct (.inst (.user n) a true) = .ok p ∧ extract p (.type .object) = .ok .none :=
  ⟨.py (.inst (.user n) a true), rfl, by simp [extract, cppMark]⟩

/-- **C70, negation**: a planet made from an exposed C++ class claims to hold every class derived from it in Python; and an
instance of a derived class is silently replaced by its C++ part, methods written in Python included. -/
theorem C70_derived (k : Cpp) (n a : ℕ) (h : Bool) :
    is_ (.cpp k) (.type (.derived k n)) = .ok true ∧ construct (.inst (.derived k n) a h) = construct (.inst (.cpp k) a h) := by
  constructor <;> simp [is_, extract, cppMark, cppExtract, construct]

/-- **C70**: `is_` is whether `extract` returns something, and a parameter that is not a class is a `TypeError` for both. -/
theorem C70_is (p : Stored) (t : Obj) :
    (∀ r, extract p t = .ok r → is_ p t = .ok (decide (r ≠ .none))) ∧
    ((∀ c, t ≠ .type c) → extract p t = .err .typeError ∧ is_ p t = .err .typeError) := by
  constructor
  · intro r hr; unfold is_; rw [hr]; rfl
  · intro h
    cases t with
    | type c => exact absurd rfl (h c)
    | inst c a b => exact ⟨rfl, rfl⟩
    | other => exact ⟨rfl, rfl⟩

/-- What a method of the planet returns: it depends on the attributes of the Python object, which live on the heap, or on
the C++ object alone, pykep/python_udpla.cpp:46-57. -/
def observe {V X : Type} (cppEph : Cpp → X) (pyEph : V → X) (other : X) (heap : ℕ → V) : Stored → X
  | .cpp k => cppEph k
  | .py (.inst _ a _) => pyEph (heap a)
  | .py _ => other

/-- The address of the Python object in a planet. -/
def address : Stored → Option ℕ
  | .py (.inst _ a _) => some a
  | _ => Option.none

/-- What a deep copy is for: no change of the object in the original is seen through the copy. -/
def Independent (p q : Stored) : Prop :=
  ∀ (V X : Type) (cppEph : Cpp → X) (pyEph : V → X) (other : X) (heap : ℕ → V) (a : ℕ) (v : V), address p = some a →
    observe cppEph pyEph other (Function.update heap a v) q = observe cppEph pyEph other heap q

/-- **C70**: the deep copy of a planet is independent of it exactly if the planet does not hold a Python object, although
the constructor recommends it for planets of both kinds. -/
theorem C70_deepcopy {o : Obj} {p : Stored} (hp : construct o = .ok p) :
    Independent p (deepcopy p) ↔ ∃ k, p = .cpp k := by
  constructor
  · intro h
    cases p with
    | cpp k => exact ⟨k, rfl⟩
    | py q =>
      exfalso
      have hq : ∃ c a b, q = .inst c a b := by
        cases o with
        | type c => simp [construct, pythonUdpla] at hp
        | other => simp [construct, pythonUdpla] at hp
        | inst c a b => cases c <;> cases b <;> simp [construct, pythonUdpla] at hp <;> exact ⟨_, _, _, hp.symm⟩
      obtain ⟨c, a, b, rfl⟩ := hq
      have := h Bool Bool (fun _ => false) id false (fun _ => false) a true rfl
      simp [observe, deepcopy] at this
  · rintro ⟨k, rfl⟩ V X ce pe x heap a v ha
    simp [address] at ha

/-- The hypothesis holds for an instance of a class with `eph`, whose deep copy is not independent. -/
example : ¬ Independent (.py (.inst (.user 0) 7 true)) (deepcopy (.py (.inst (.user 0) 7 true))) := by
  rw [C70_deepcopy (o := .inst (.user 0) 7 true) rfl]; simp

/-! ### The array of ephemerides -/

theorem rowOf_ok {α : Type} (vals : List α) (i : ℕ) : (∃ r, rowOf vals i = .ok r) ↔ 6 * (i + 1) ≤ vals.length := by
  unfold rowOf
  simp only [List.length_take, List.length_drop]
  split_ifs with h
  · simp; omega
  · simp; omega

/-- **C70**: reading the array is defined exactly if the user's method returned at least six values for every epoch. -/
theorem C70_eph_v_defined {α : Type} (vals : List α) (n : ℕ) :
    (∀ i < n, ∃ r, rowOf vals i = .ok r) ↔ 6 * n ≤ vals.length := by
  constructor
  · intro h
    rcases Nat.eq_zero_or_pos n with rfl | hn
    · simp
    · have := (rowOf_ok vals (n - 1)).1 (h (n - 1) (by omega)); omega
  · intro h i hi
    exact (rowOf_ok vals i).2 (by omega)

/-- **C70, negation**: for a Python class whose `eph_v` returns too few values, reading some row is undefined. -/
theorem C70_eph_v_out_of_bounds {α : Type} (vals : List α) (n : ℕ) (h : vals.length < 6 * n) :
    ∃ i < n, rowOf vals i = .ub := by
  refine ⟨n - 1, by omega, ?_⟩
  unfold rowOf
  simp only [List.length_take, List.length_drop]
  rw [if_neg (by omega)]

/-- **C70**: without an `eph_v` of its own, row `i` of the array is position and velocity of the scalar call for the `i`-th
epoch. -/
theorem C70_eph_v {u : Udpla} (h : u.ephV = none) {ts : List ℝ} {out : List (Option ℝ)}
    (ho : Planet.ephV u ts = .ok out) (i : ℕ) (hi : i < ts.length) :
    ∃ x, Planet.eph u ts[i] = .ok x ∧ rowOf out i = .ok (row x) := by
  have hl := (C09_rows h ho).1
  obtain ⟨x, hx, h0, h1, h2, h3, h4, h5⟩ := (C09_rows h ho).2 i hi
  refine ⟨x, hx, ?_⟩
  have hr : (out.drop (6 * i)).take 6 = row x := by
    apply List.ext_getElem?
    intro k
    rw [List.getElem?_take]
    by_cases hk : k < 6
    · rw [if_pos hk, List.getElem?_drop]
      interval_cases k <;> simp_all [row]
    · rw [if_neg hk, List.getElem?_eq_none (by simp [row]; omega)]
  unfold rowOf
  rw [hr]
  simp [row]

/-- An array of one row, and of one row too many. -/
example : rowOf [1, 2, 3, 4, 5, 6, 7] 0 = .ok [1, 2, 3, 4, 5, 6] ∧ rowOf [1, 2, 3, 4, 5, 6, 7] 1 = .ub := by
  constructor <;> rfl

/-- An instance of a class of the user, extracted by its class and by another. -/
example : extract (.py (.inst (.user 3) 7 true)) (.type (.user 3)) = .ok (.py (.inst (.user 3) 7 true)) ∧
    extract (.py (.inst (.user 3) 7 true)) (.type (.cpp .keplerian)) = .ok .none := by decide

end Kep3.PyPlanet
