import Verif.Epoch.Double

/-!
# C78: overloads of the Python interface

Which C++ function a call from Python reaches, for the functions of `pykep/core.cpp` with several overloads: the
constructors of `epoch`, `epoch + x`, `epoch - x`, and for the arguments `when` of a planet, which are numbers or epochs.

Trusted (pybind11, not in /repo): overloads are tried in the order of their definition, first without implicit conversions
and then, only if all have failed, with them; a single function is called with conversions at once. The conversions of
arguments are those of pybind11 2.x, and of 3.x where `int` objects are accepted for `double` without conversion
(`intf = true` below). Left out: infinite and undefined numbers, keyword arguments, and sequences.
-/

namespace Kep3.PyCall
open Kep3.Epoch Fl

/-- Python objects, as far as the conversions of arguments tell them apart. -/
inductive PyVal
  /-- `float` and classes derived from it, e.g. `numpy.float64` -/
  | float (x : ℚ)
  /-- `int` and classes derived from it, e.g. `bool` -/
  | int (n : Int)
  /-- objects with `__index__` that are not `int`, e.g. `numpy.int64` -/
  | index (n : Int)
  /-- objects with `__float__`, neither of the above, e.g. `numpy.float32`, `fractions.Fraction` -/
  | number (x : ℚ)
  | str (s : List Char)
  | datetime (t : DateTime)
  /-- `datetime.timedelta`, in microseconds -/
  | timedelta (us : Int)
  | epoch (e : Int)
  | julian (jt : JulianType)
  /-- `epoch.string_format.ISO` -/
  | iso
  /-- all other objects: `None`, lists, ... -/
  | other

/-- `float(v)` as a C double: integers are rounded, and too large for a double raise `OverflowError`. -/
def PyVal.toFloat : PyVal → Option ℚ
  | .float x => some x
  | .int n => if |rn (n : ℚ)| < 2 ^ 1024 then some (rn n) else none
  | .index n => if |rn (n : ℚ)| < 2 ^ 1024 then some (rn n) else none
  | .number x => some x
  | _ => none

/-- The conversion to `double` of the arguments of pykep/core.cpp:134, 181 and 206, with or without implicit conversions. -/
def castDouble (intf convert : Bool) (v : PyVal) : Option ℚ :=
  match v, convert with
  | .float x, _ => some x
  | .int n, false => if intf then (PyVal.int n).toFloat else none
  | _, false => none
  | v, true => v.toFloat

/-- A C `int`: 32 bits. -/
def castInt32 (n : Int) : Option Int := if -2 ^ 31 ≤ n ∧ n < 2 ^ 31 then some n else none

/-- The conversion to `int` of the argument of pykep/core.cpp:136: not from `float` objects, and from other numbers with a
fraction only with implicit conversions, by truncation. -/
def castInt (convert : Bool) (v : PyVal) : Option Int :=
  match v, convert with
  | .int n, _ => castInt32 n
  | .index n, _ => castInt32 n
  | .number x, true => castInt32 (trunc x)
  | _, _ => none

/-- The conversion to `std::chrono::duration<double>` of the arguments of pykep/core.cpp:183 and 186 (pybind11/chrono.h): a
`timedelta`, or a `float` in seconds. -/
def castDuration (v : PyVal) : Option ℚ :=
  match v with
  | .timedelta us => some (toDouble 1000000 us)
  | .float x => some x
  | _ => none

/-- The dispatcher of overloaded functions: the first overload that takes the arguments as they are, else the first that takes
them with implicit conversions, else a `TypeError`; used by pykep/core.cpp:132-159, 181-186 and by single functions. -/
def dispatch {α : Type} (overloads : List (Bool → Option (Res α))) : Res α :=
  let pass (convert : Bool) := overloads.findSome? (· convert)
  let found := if overloads.length ≤ 1 then pass true else (pass false).or (pass true)
  found.getD (.err .typeError)

/-- `epoch(when)` and `epoch(when, second)`, pykep/core.cpp:132-159: from a double, an int, a string, and, with one argument
only, from any object, which must be a `datetime`. -/
def epochCtor (intf : Bool) (v : PyVal) (second : Option PyVal) : Res Int :=
  let jt : Option JulianType := match second with
    | none => some .MJD2000
    | some (.julian jt) => some jt
    | some _ => none
  let fmt : Option Unit := match second with
    | none => some ()
    | some .iso => some ()
    | some _ => none
  dispatch [
    fun c => do let x ← castDouble intf c v; let jt ← jt; return ofJulianD x jt,
    fun c => do let n ← castInt c v; let jt ← jt; return ofJulianD n jt,
    fun _ => do
      let s ← match v with | .str s => some s | _ => none
      let _ ← fmt
      return ofString s,
    fun _ => match second with
      | some _ => none
      | none => some (match v with | .datetime t => ofDatetime t | _ => .err .typeError)]

/-- `epoch + duration<double>` in seconds, pykep/core.cpp:183. -/
def addSeconds (e : Int) (x : ℚ) : Res Int := do let d ← fromDouble 1000000 x; add e d
/-- `epoch - duration<double>` in seconds, pykep/core.cpp:186. -/
def subSeconds (e : Int) (x : ℚ) : Res Int := do let d ← fromDouble 1000000 x; sub e d

/-- `epoch + v` in Python, pykep/core.cpp:181-183. -/
def pyAdd (intf : Bool) (e : Int) (v : PyVal) : Res Int :=
  dispatch [
    fun c => (castDouble intf c v).map (addDays e),
    fun _ => (castDuration v).map (addSeconds e)]

/-- `epoch - v` in Python, pykep/core.cpp:184-186. -/
def pySub (intf : Bool) (e : Int) (v : PyVal) : Res Int :=
  dispatch [
    fun c => (castDouble intf c v).map (subDays e),
    fun _ => (castDuration v).map (subSeconds e)]

/-- A comparison of an epoch with another object, pykep/core.cpp:174-179: the functions are not declared as operators, so an
argument they do not take raises instead of giving the other object its turn. -/
def pyCompare (op : Int → Int → Bool) (e : Int) (v : PyVal) : Res Bool :=
  dispatch [fun _ => match v with | .epoch f => some (.ok (op e f)) | _ => none]

/-- The conversion to `std::variant<double, epoch>` of the argument `when` of `eph`, `period` and `elements`,
pykep/core.cpp:204-209, 249-254, 256-262: each alternative in turn without conversions, then with. -/
def castWhen (intf convert : Bool) (v : PyVal) : Option (ℚ ⊕ Int) :=
  let alt (c : Bool) : Option (ℚ ⊕ Int) :=
    ((castDouble intf c v).map Sum.inl).or (match v with | .epoch e => some (.inr e) | _ => none)
  (if convert then alt false else none).or (alt convert)

/-- `planet.eph(when)` in Python, `f` the function of the day number: pykep/core.cpp:204-209, and src/planet.cpp:78-91 for
epochs. `period` and `elements` (249-262) take their argument in the same way. -/
def pyAt {α : Type} (intf : Bool) (f : ℚ → Res α) (v : PyVal) : Res α :=
  dispatch [fun c => (castWhen intf c v).map fun
    | .inl x => f x
    | .inr e => do let x ← julianD e .MJD2000; f x]

/-! ## Properties -/

theorem toFloat_int {n : Int} (h : |n| ≤ 2 ^ 53) : (PyVal.int n).toFloat = some (n : ℚ) := by
  have hn : |(n : ℚ)| ≤ 2 ^ 53 := by exact_mod_cast h
  have : |(n : ℚ)| < 2 ^ 1024 := lt_of_le_of_lt hn (pow_lt_pow_right₀ (by norm_num) (by norm_num))
  simp [PyVal.toFloat, rn_int h, this]

theorem toFloat_index {n : Int} (h : |n| ≤ 2 ^ 53) : (PyVal.index n).toFloat = some (n : ℚ) := toFloat_int h

theorem castInt32_some {n m : Int} (h : castInt32 n = some m) : m = n ∧ |n| ≤ 2 ^ 53 := by
  unfold castInt32 at h
  split_ifs at h with h1
  simp only [Option.some.injEq] at h
  exact ⟨h.symm, abs_le.2 ⟨by omega, by omega⟩⟩

theorem castDouble_true (intf : Bool) (v : PyVal) : castDouble intf true v = v.toFloat := by
  cases v <;> rfl

theorem castDouble_false {intf : Bool} {v : PyVal} : castDouble intf false v = none ∨
    castDouble intf false v = v.toFloat := by
  cases v <;> cases intf <;> simp [castDouble, PyVal.toFloat]

theorem castDuration_toFloat {v : PyVal} {x : ℚ} (h : v.toFloat = some x) : castDuration v = none ∨
    ∃ y, v = .float y := by
  cases v <;> simp_all [castDuration, PyVal.toFloat]

theorem trunc_int (n : Int) : trunc (n : ℚ) = n := by unfold trunc; split_ifs <;> simp

/-- **C78**: `epoch + v` and `epoch - v` mean days for every kind of number, in both versions of pybind11, and the exact
duration for a `timedelta`; no number is ever taken for seconds, and everything else raises a `TypeError`. -/
theorem C78_add (intf : Bool) (e : Int) (v : PyVal) :
    (∀ x, v.toFloat = some x → pyAdd intf e v = addDays e x ∧ pySub intf e v = subDays e x) ∧
    (∀ us, v = .timedelta us → pyAdd intf e v = addDelta e us ∧ pySub intf e v = subDelta e us) ∧
    (v.toFloat = none → (∀ us, v ≠ .timedelta us) →
      pyAdd intf e v = .err .typeError ∧ pySub intf e v = .err .typeError) := by
  refine ⟨?_, ?_, ?_⟩
  · intro x hx
    rcases castDuration_toFloat hx with hd | ⟨y, rfl⟩
    · rcases castDouble_false (intf := intf) (v := v) with h | h <;>
        simp [pyAdd, pySub, dispatch, castDouble_true, h, hd, hx]
    · simp only [PyVal.toFloat, Option.some.injEq] at hx
      subst hx
      exact ⟨rfl, rfl⟩
  · rintro us rfl
    constructor <;> rfl
  · intro hx hd
    have hd : castDuration v = none := by cases v <;> simp_all [castDuration, PyVal.toFloat]
    rcases castDouble_false (intf := intf) (v := v) with h | h <;>
      simp [pyAdd, pySub, dispatch, castDouble_true, h, hd, hx]

/-- **C78**: with the kind of day number given, the constructor of epochs takes every kind of number for that day number. -/
theorem C78_epoch_julian (intf : Bool) (v : PyVal) (jt : JulianType) (x : ℚ) (hx : v.toFloat = some x) :
    epochCtor intf v (some (.julian jt)) = ofJulianD x jt := by
  cases v with
  | float y => simp_all [epochCtor, dispatch, castDouble, PyVal.toFloat]
  | number y => cases intf <;> simp_all [epochCtor, dispatch, castDouble, castInt, PyVal.toFloat]
  | int n =>
    cases intf with
    | true => simp_all [epochCtor, dispatch, castDouble]
    | false =>
      cases h : castInt32 n with
      | none => simp_all [epochCtor, dispatch, castDouble, castInt]
      | some m =>
        obtain ⟨rfl, hn⟩ := castInt32_some h
        rw [toFloat_int hn] at hx
        simp_all [epochCtor, dispatch, castDouble, castInt]
  | index n =>
    cases h : castInt32 n with
    | none => simp_all [epochCtor, dispatch, castDouble, castInt]
    | some m =>
      obtain ⟨rfl, hn⟩ := castInt32_some h
      rw [toFloat_index hn] at hx
      simp_all [epochCtor, dispatch, castDouble, castInt]
  | _ => simp [PyVal.toFloat] at hx

/-- **C78, partial**: the constructor with one argument: `float` objects and integers of 32 bits are days since 2000, strings
are dates, `datetime` objects are themselves. Missing: other numbers, which raise (`C78_epoch_rejects`). -/
theorem C78_epoch_partial (intf : Bool) (v : PyVal) :
    (∀ x, v = .float x → epochCtor intf v none = ofJulianD x .MJD2000) ∧
    (∀ n : Int, -2 ^ 31 ≤ n → n < 2 ^ 31 → v = .int n ∨ v = .index n → epochCtor intf v none = ofJulianD n .MJD2000) ∧
    (∀ s, v = .str s → epochCtor intf v none = ofString s ∧ epochCtor intf v (some .iso) = ofString s) ∧
    (∀ t, v = .datetime t → epochCtor intf v none = ofDatetime t) := by
  refine ⟨?_, ?_, ?_, ?_⟩
  · rintro x rfl; rfl
  · intro n h1 h2 h
    have h3 : castInt32 n = some n := if_pos ⟨h1, h2⟩
    have hn : |n| ≤ 2 ^ 53 := (castInt32_some h3).2
    rcases h with rfl | rfl
    · cases intf <;> simp [epochCtor, dispatch, castDouble, castInt, h3, toFloat_int hn]
    · simp [epochCtor, dispatch, castDouble, castInt, h3]
  · rintro s rfl; constructor <;> rfl
  · rintro t rfl; rfl

/-- **C78, negation**: numbers that are neither `float` nor integers, e.g. `numpy.float32(0.5)`, raise a `TypeError` in
`epoch(x)`, though `epoch(x, julian_type.MJD2000)`, `epoch(0) + x` and `float(x)` are accepted: the overload for `datetime`
takes every object before conversions are tried. So do integers beyond 32 bits before pybind11 3, and those of numpy in both. -/
theorem C78_epoch_rejects (intf : Bool) :
    (∀ x, epochCtor intf (.number x) none = .err .typeError ∧
      epochCtor intf (.number x) (some (.julian .MJD2000)) = ofJulianD x .MJD2000 ∧
      epochCtor intf (.float x) none = ofJulianD x .MJD2000) ∧
    (∀ n : Int, n < -2 ^ 31 ∨ 2 ^ 31 ≤ n →
      epochCtor intf (.index n) none = .err .typeError ∧ epochCtor false (.int n) none = .err .typeError) ∧
    (∀ e, epochCtor intf (.epoch e) none = .err .typeError) := by
  refine ⟨fun x => ⟨?_, ?_, rfl⟩, fun n hn => ?_, fun e => ?_⟩
  · cases intf <;> simp [epochCtor, dispatch, castDouble, castInt]
  · exact C78_epoch_julian intf _ _ x rfl
  · have h : castInt32 n = none := if_neg (by omega)
    constructor <;> simp [epochCtor, dispatch, castDouble, castInt, h]
  · cases intf <;> simp [epochCtor, dispatch, castDouble, castInt]

/-- **C78**: a planet takes every kind of number for the same day number, and an epoch for its day number: the two ways of
giving a date agree. Strings and `datetime` objects raise. -/
theorem C78_when {α : Type} (intf : Bool) (f : ℚ → Res α) (v : PyVal) :
    (∀ x, v.toFloat = some x → pyAt intf f v = f x) ∧
    (∀ e x, v = .epoch e → julianD e .MJD2000 = .ok x → pyAt intf f v = pyAt intf f (.float x)) ∧
    (v.toFloat = none → (∀ e, v ≠ .epoch e) → pyAt intf f v = .err .typeError) := by
  refine ⟨?_, ?_, ?_⟩
  · intro x hx
    rcases castDouble_false (intf := intf) (v := v) with h | h
    · cases v <;> simp_all [pyAt, dispatch, castWhen, castDouble_true] <;> simp [PyVal.toFloat] at hx
    · simp [pyAt, dispatch, castWhen, castDouble_true, h, hx]
  · rintro e x rfl hx
    simp [pyAt, dispatch, castWhen, castDouble, PyVal.toFloat, hx]
  · intro hx he
    rcases castDouble_false (intf := intf) (v := v) with h | h <;>
      cases v <;> simp_all [pyAt, dispatch, castWhen, castDouble_true]

/-- **C78, negation**: a comparison of an epoch with anything but an epoch raises, also `==` and `!=` (with `None`, say), which
in Python are expected to answer; among epochs it is the comparison of the instants. -/
theorem C78_compare (op : Int → Int → Bool) (e : Int) (v : PyVal) :
    (∀ f, v = .epoch f → pyCompare op e v = .ok (op e f)) ∧
    ((∀ f, v ≠ .epoch f) → pyCompare op e v = .err .typeError) := by
  constructor
  · rintro f rfl; rfl
  · intro h
    cases v <;> simp_all [pyCompare, dispatch]

/-- Concrete cases: one day after the first of January 2000 with a float, an `int`, a number of numpy and a `timedelta`; the
constructor with the number 0.5 of single precision, and with one argument more. -/
example : pyAdd false y2kOffset (.float 1) = .ok (y2kOffset + 86400000000) ∧
    pyAdd false y2kOffset (.int 1) = .ok (y2kOffset + 86400000000) ∧
    pyAdd false y2kOffset (.number 1) = .ok (y2kOffset + 86400000000) ∧
    epochCtor false (.number (1 / 2)) none = .err .typeError ∧
    epochCtor false (.number (1 / 2)) (some (.julian .MJD2000)) = .ok (y2kOffset + 43200000000) := by
  have h1 : addDays y2kOffset 1 = .ok (y2kOffset + 86400000000) := by
    unfold addDays fromDouble
    rw [show (1 : ℚ) * ((86400000000 : Int) : ℚ) = ((86400000000 : Int) : ℚ) by push_cast; ring,
      rn_int (by norm_num), trunc_int]
    decide
  have h2 : ofJulianD (1 / 2) .MJD2000 = .ok (y2kOffset + 43200000000) := by
    unfold ofJulianD tpFromDaysD fromDouble
    rw [show (1 / 2 : ℚ) * ((86400000000 : Int) : ℚ) = ((43200000000 : Int) : ℚ) by push_cast; ring,
      rn_int (by norm_num), trunc_int]
    decide
  refine ⟨?_, ?_, ?_, (C78_epoch_rejects false).1 _ |>.1, ?_⟩
  · rw [((C78_add false _ (.float 1)).1 1 rfl).1, h1]
  · rw [((C78_add false _ (.int 1)).1 1 (by simpa using toFloat_int (n := 1) (by norm_num))).1, h1]
  · rw [((C78_add false _ (.number 1)).1 1 rfl).1, h1]
  · rw [C78_epoch_julian false _ _ (1 / 2) rfl, h2]

end Kep3.PyCall
