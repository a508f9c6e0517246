import Verif.Cache.Vsop

/-!
# C95: life times of VSOP2013 planets

The special members of `kep3::udpla::vsop2013` (src/udpla/vsop2013.cpp, include/kep3/udpla/vsop2013.hpp): constructors, copies, moves, assignments, destruction, archives.
Compiled functions live in modules in memory: a `heyoka::llvm_state` owns one, a copy of it owns another one, and the pointer `eval_f` points into one; the module goes away with its
owner. Undefined behaviour (dereferencing a null `m_impl`, or calling into a module that is gone) is `none`. heyoka is a parameter: `compile` gives the function of an expression,
or `none` when it throws, and `eval` runs it. One thread only; for the mutex see `Cache/Machine.lean`. Exceptions for lack of memory are left out.
-/

namespace Kep3.Cache.Life
variable {V : Type}

/-- `vsop2013::impl`, src/udpla/vsop2013.cpp:75-82: the module owned by `m_state`, the module `eval_f` points into, and the other members. -/
structure Impl where
  state : ℕ
  evalF : ℕ
  mu : ℝ
  name : List Char
  thresh : Dbl

/-- An archive: unreadable, or with a null pointer, or with an object (src/udpla/vsop2013.cpp:100-106, 190-193). -/
inductive File (V : Type)
  | bad
  | null
  | obj (p : Vsop V)

/-- What a program sees. -/
inductive Obs
  /-- The operation is not possible in a C++ program: the variable exists already, or does not exist. -/
  | skip
  | done
  | thrown
  | state (x : RV ℝ)
  | name (n : List Char) (thresh : Dbl)

/-- The operations on variables (numbered) and files (numbered). -/
inductive Op
  | make (x : ℕ) (name : List Char) (thresh : Dbl)
  | copy (x y : ℕ)
  | move (x y : ℕ)
  | assign (x y : ℕ)
  | moveAssign (x y : ℕ)
  | destroy (x : ℕ)
  | save (x f : ℕ)
  | load (f x : ℕ)
  | corrupt (f : ℕ)
  | eph (x : ℕ) (t : ℝ)
  | name (x : ℕ)

/-- The memory: modules, next free address, `state_dict` (src/udpla/vsop2013.cpp:65), variables (`none`: does not exist; `some none`: `m_impl` is null) and files. -/
structure World (V : Type) where
  mods : ℕ → Option V
  next : ℕ
  cache : List ((ℕ × Dbl) × ℕ)
  vars : ℕ → Option (Option Impl)
  files : ℕ → File V

/-- Change of one entry. -/
def set {α : Type} (f : ℕ → α) (x : ℕ) (a : α) : ℕ → α := fun y => if y = x then a else f y

/-- At the start of the program. -/
def World.init : World V := ⟨fun _ => none, 0, [], fun _ => none, fun _ => .bad⟩

/-- A new module with a function. -/
def World.alloc (w : World V) (v : V) : World V := { w with mods := set w.mods w.next (some v), next := w.next + 1 }

/-- The destructor of `std::unique_ptr<impl>`. -/
def World.free (w : World V) : Option Impl → World V
  | none => w
  | some im => { w with mods := set w.mods im.state none }

/-- Assigns the pointer `m_impl` of a variable. -/
def World.put (w : World V) (x : ℕ) (o : Option (Option Impl)) : World V := { w with vars := set w.vars x o }

/-- An `impl` that owns the newest module: the pointer is looked up in it, src/udpla/vsop2013.cpp:85-89. -/
def World.newest (w : World V) (mu : ℝ) (name : List Char) (thresh : Dbl) : Impl := ⟨w.next - 1, w.next - 1, mu, name, thresh⟩

/-- The copy constructor of `impl`, src/udpla/vsop2013.cpp:91-95. -/
def World.copyImpl (w : World V) (im : Impl) : Option (World V × Impl) := do
  let v ← w.mods im.state
  let w := w.alloc v
  return (w, w.newest im.mu im.name im.thresh)

/-- `state_dict.find`, src/udpla/vsop2013.cpp:145: keys are compared component by component. -/
def World.find (w : World V) (k : ℕ × Dbl) : Option ((ℕ × Dbl) × ℕ) := w.cache.find? fun e => decide (e.1.1 = k.1) && Dbl.beq e.1.2 k.2

section
variable (compile : VsopExpr → Option V) (mus : ℕ → ℝ)

/-- The constructor `vsop2013(name, thresh)`, src/udpla/vsop2013.cpp:121-173; the inner `none` is an exception. -/
noncomputable def World.construct (w : World V) (name : List Char) (thresh : Dbl) : Option (World V × Option Impl) :=
  match vsopCheck name thresh with
  | .ok (i, low) =>
    let mu := mus i * AU * AU * AU / (DAY2SEC * DAY2SEC)
    match w.find (i, thresh) with
    | none =>
      match compile (vsopExpr (i, thresh)) with
      | none => some (w, none)
      | some v =>
        let w := w.alloc v
        let w := { w with cache := ((i, thresh), w.next - 1) :: w.cache }
        let w := w.alloc v
        some (w, some (w.newest mu low thresh))
    | some e => do
      let v ← w.mods e.2
      let w := w.alloc v
      return (w, some (w.newest mu low thresh))
  | _ => some (w, none)

variable (eval : V → ℝ → Fin 6 → ℝ) (d5 : Dbl)

/-- One operation. `d5` is the default threshold 1e-5, include/kep3/udpla/vsop2013.hpp:37. -/
noncomputable def World.step (w : World V) : Op → Option (World V × Obs)
  -- src/udpla/vsop2013.cpp:119-173
  | .make x name thresh =>
    match w.vars x with
    | some _ => some (w, .skip)
    | none => do
      let (w, o) ← w.construct compile mus name thresh
      match o with
      | none => return (w, .thrown)
      | some im => return (w.put x (some (some im)), .done)
  -- src/udpla/vsop2013.cpp:177
  | .copy x y =>
    match w.vars x, w.vars y with
    | some o, none => do
      let im ← o
      let (w, im) ← w.copyImpl im
      return (w.put y (some (some im)), .done)
    | _, _ => some (w, .skip)
  -- src/udpla/vsop2013.cpp:175
  | .move x y =>
    match w.vars x, w.vars y with
    | some o, none => some ((w.put y (some o)).put x (some none), .done)
    | _, _ => some (w, .skip)
  -- src/udpla/vsop2013.cpp:181-188
  | .assign x y =>
    match w.vars x, w.vars y with
    | some o, some old =>
      if x = y then some (w, .done)
      else do
        let im ← o
        let (w, im) ← w.copyImpl im
        return ((w.free old).put y (some (some im)), .done)
    | _, _ => some (w, .skip)
  -- src/udpla/vsop2013.cpp:179; a self-move of `std::unique_ptr` changes nothing
  | .moveAssign x y =>
    match w.vars x, w.vars y with
    | some o, some old =>
      if x = y then some (w, .done)
      else some (((w.free old).put y (some o)).put x (some none), .done)
    | _, _ => some (w, .skip)
  -- src/udpla/vsop2013.cpp:207
  | .destroy x =>
    match w.vars x with
    | none => some (w, .skip)
    | some old => some ((w.free old).put x none, .done)
  -- src/udpla/vsop2013.cpp:100-106, 190-193
  | .save x f =>
    match w.vars x with
    | none => some (w, .skip)
    | some none => some ({ w with files := set w.files f .null }, .done)
    | some (some im) => do
      let v ← w.mods im.state
      return ({ w with files := set w.files f (.obj ⟨v, im.mu, im.name, im.thresh⟩) }, .done)
  -- src/udpla/vsop2013.cpp:107-115, 195-205
  | .load f x =>
    match w.vars x with
    | none => some (w, .skip)
    | some old =>
      match w.files f with
      | .bad => do
        let (w, o) ← w.construct compile mus "mercury".toList d5
        match o with
        | none => return (w, .thrown)
        | some im => return ((w.free old).put x (some (some im)), .thrown)
      | .null => some ((w.free old).put x (some none), .done)
      | .obj p =>
        let w := w.alloc p.fn
        some ((w.free old).put x (some (some (w.newest p.mu p.name p.thresh))), .done)
  | .corrupt f => some ({ w with files := set w.files f .bad }, .done)
  -- src/udpla/vsop2013.cpp:209-217
  | .eph x t =>
    match w.vars x with
    | none => some (w, .skip)
    | some o => do
      let im ← o
      let v ← w.mods im.evalF
      return (w, .state (vsopEph eval ⟨v, im.mu, im.name, im.thresh⟩ t))
  -- src/udpla/vsop2013.cpp:219-222
  | .name x =>
    match w.vars x with
    | none => some (w, .skip)
    | some o => do
      let im ← o
      return (w, .name im.name im.thresh)

/-- A sequence of operations: what the program sees, or undefined behaviour. -/
noncomputable def World.run (w : World V) : List Op → Option (List Obs)
  | [] => some []
  | o :: os => do
    let (w, a) ← w.step compile mus eval d5 o
    let l ← w.run os
    return a :: l

end

/-! ## What a user expects: variables are values -/

/-- Variables that hold planets (`some none`: moved from), and files. -/
structure Vals (V : Type) where
  vars : ℕ → Option (Option (Vsop V))
  files : ℕ → File V

/-- At the start of the program. -/
def Vals.init : Vals V := ⟨fun _ => none, fun _ => .bad⟩

section
variable (compile : VsopExpr → Option V) (mus : ℕ → ℝ) (eval : V → ℝ → Fin 6 → ℝ) (d5 : Dbl)

/-- The planet with a name and a threshold, if they are valid. -/
noncomputable def planet (name : List Char) (thresh : Dbl) : Option (Vsop V) :=
  match vsopCheck name thresh with
  | .ok (i, low) => (compile (vsopExpr (i, thresh))).map (vsopImpl mus i low thresh)
  | _ => none

/-- One operation on values; `none` when it needs the value of a variable that was moved from. -/
noncomputable def Vals.step (s : Vals V) : Op → Option (Vals V × Obs)
  | .make x name thresh =>
    match s.vars x, planet compile mus name thresh with
    | some _, _ => some (s, .skip)
    | none, none => some (s, .thrown)
    | none, some p => some ({ s with vars := set s.vars x (some (some p)) }, .done)
  | .copy x y =>
    match s.vars x, s.vars y with
    | some (some p), none => some ({ s with vars := set s.vars y (some (some p)) }, .done)
    | some none, none => none
    | _, _ => some (s, .skip)
  | .move x y =>
    match s.vars x, s.vars y with
    | some o, none => some ({ s with vars := set (set s.vars y (some o)) x (some none) }, .done)
    | _, _ => some (s, .skip)
  | .assign x y =>
    match s.vars x, s.vars y with
    | some o, some _ =>
      if x = y then some (s, .done) else o.map fun p => ({ s with vars := set s.vars y (some (some p)) }, .done)
    | _, _ => some (s, .skip)
  | .moveAssign x y =>
    match s.vars x, s.vars y with
    | some o, some _ =>
      if x = y then some (s, .done) else some ({ s with vars := set (set s.vars y (some o)) x (some none) }, .done)
    | _, _ => some (s, .skip)
  | .destroy x =>
    match s.vars x with
    | none => some (s, .skip)
    | some _ => some ({ s with vars := set s.vars x none }, .done)
  | .save x f =>
    match s.vars x with
    | none => some (s, .skip)
    | some none => some ({ s with files := set s.files f .null }, .done)
    | some (some p) => some ({ s with files := set s.files f (.obj p) }, .done)
  | .load f x =>
    match s.vars x, s.files f with
    | none, _ => some (s, .skip)
    | some _, .null => some ({ s with vars := set s.vars x (some none) }, .done)
    | some _, .obj p => some ({ s with vars := set s.vars x (some (some p)) }, .done)
    | some _, .bad =>
      match planet compile mus "mercury".toList d5 with
      | none => some (s, .thrown)
      | some p => some ({ s with vars := set s.vars x (some (some p)) }, .thrown)
  | .corrupt f => some ({ s with files := set s.files f .bad }, .done)
  | .eph x t =>
    match s.vars x with
    | none => some (s, .skip)
    | some o => o.map fun p => (s, .state (vsopEph eval p t))
  | .name x =>
    match s.vars x with
    | none => some (s, .skip)
    | some o => o.map fun p => (s, .name p.name p.thresh)

/-- A sequence of operations on values. -/
noncomputable def Vals.run (s : Vals V) : List Op → Option (List Obs)
  | [] => some []
  | o :: os => do
    let (s, a) ← s.step compile mus eval d5 o
    let l ← s.run os
    return a :: l

end

/-! ## The memory represents the values -/

/-- The object `im` is the planet `p`. -/
structure Impl.Is (w : World V) (im : Impl) (p : Vsop V) : Prop where
  self : im.evalF = im.state
  fn : w.mods im.state = some p.fn
  lt : im.state < w.next
  mu : im.mu = p.mu
  name : im.name = p.name
  thresh : im.thresh = p.thresh

/-- A variable represents a value. -/
def Shows (w : World V) : Option (Option Impl) → Option (Option (Vsop V)) → Prop
  | none, none => True
  | some none, some none => True
  | some (some im), some (some p) => im.Is w p
  | _, _ => False

/-- The memory represents the values, and no module has two owners. -/
structure Inv (compile : VsopExpr → Option V) (w : World V) (s : Vals V) : Prop where
  vars : ∀ x, Shows w (w.vars x) (s.vars x)
  files : w.files = s.files
  one : ∀ x y a b, w.vars x = some (some a) → w.vars y = some (some b) → a.state = b.state → x = y
  cache : ∀ e ∈ w.cache, e.2 < w.next ∧ w.mods e.2 = compile (vsopExpr e.1) ∧ (w.mods e.2).isSome
  apart : ∀ x a, w.vars x = some (some a) → ∀ e ∈ w.cache, a.state ≠ e.2

/-- The object owns a module that nothing else owns. -/
structure Fresh (w : World V) (im : Impl) (p : Vsop V) : Prop where
  is : im.Is w p
  vars : ∀ x a, w.vars x = some (some a) → a.state ≠ im.state
  cache : ∀ e ∈ w.cache, im.state ≠ e.2

theorem Impl.Is.congr {w w' : World V} {im : Impl} {p : Vsop V} (h : im.Is w p) (h1 : w'.mods im.state = w.mods im.state) (h2 : w.next ≤ w'.next) : im.Is w' p :=
  ⟨h.self, h1.trans h.fn, h.lt.trans_le h2, h.mu, h.name, h.thresh⟩

theorem Shows.congr {w w' : World V} {o : Option (Option Impl)} {q : Option (Option (Vsop V))} (h : Shows w o q)
    (h1 : ∀ im, o = some (some im) → im.state < w.next → w'.mods im.state = w.mods im.state) (h2 : w.next ≤ w'.next) : Shows w' o q := by
  match o, q, h with
  | none, none, _ => trivial
  | some none, some none, _ => trivial
  | some (some im), some (some p), h => exact Impl.Is.congr h (h1 im rfl h.lt) h2

theorem Shows.none_iff {w : World V} {o : Option (Option Impl)} {q : Option (Option (Vsop V))} (h : Shows w o q) : (o = none ↔ q = none) ∧ (o = some none ↔ q = some none) := by
  match o, q, h with
  | none, none, _ => simp
  | some none, some none, _ => simp
  | some (some im), some (some p), h => simp

section
variable {compile : VsopExpr → Option V} {w : World V} {s : Vals V}

theorem Inv.lt (h : Inv compile w s) {x : ℕ} {a : Impl} (ha : w.vars x = some (some a)) : a.state < w.next := by
  have := h.vars x
  rw [ha] at this
  match s.vars x, this with
  | some (some p), g => exact g.lt

theorem Inv.alloc (h : Inv compile w s) (v : V) : Inv compile (w.alloc v) s where
  vars x := (h.vars x).congr (fun im _ hl => if_neg hl.ne) (Nat.le_succ _)
  files := h.files
  one := h.one
  cache e he := by
    obtain ⟨h1, h2, h3⟩ := h.cache e he
    have : (w.alloc v).mods e.2 = w.mods e.2 := if_neg h1.ne
    rw [this]
    exact ⟨h1.trans (Nat.lt_succ_self _), h2, h3⟩
  apart := h.apart

theorem Inv.newest (h : Inv compile w s) (p : Vsop V) : Fresh (w.alloc p.fn) ((w.alloc p.fn).newest p.mu p.name p.thresh) p where
  is := ⟨rfl, if_pos rfl, Nat.lt_succ_self _, rfl, rfl, rfl⟩
  vars x a ha := (h.lt ha).ne
  cache e he := (h.cache e he).1.ne'

/-- A variable gets the result of a constructor, after the old object is gone. -/
theorem Inv.replace (h : Inv compile w s) {x : ℕ} {im : Impl} {p : Vsop V} (hf : Fresh w im p) {old : Option Impl} (ho : w.vars x = some old ∨ w.vars x = none ∧ old = none) :
    Inv compile ((w.free old).put x (some (some im))) ⟨set s.vars x (some (some p)), s.files⟩ := by
  have hother : ∀ y, y ≠ x → ∀ a, w.vars y = some (some a) → (w.free old).mods a.state = w.mods a.state := by
    intro y hy a ha
    rcases old with _ | b
    · rfl
    · rcases ho with ho | ⟨-, ho⟩
      · exact if_neg fun e => hy (h.one y x a b ha ho e)
      · cases ho
  have hcache : ∀ e ∈ w.cache, (w.free old).mods e.2 = w.mods e.2 := by
    intro e he
    rcases old with _ | b
    · rfl
    · rcases ho with ho | ⟨-, ho⟩
      · exact if_neg (h.apart x b ho e he).symm
      · cases ho
  have hnew : (w.free old).mods im.state = w.mods im.state := by
    rcases old with _ | b
    · rfl
    · rcases ho with ho | ⟨-, ho⟩
      · exact if_neg (hf.vars x b ho).symm
      · cases ho
  have hnext : (w.free old).next = w.next := by cases old <;> rfl
  have hvars : (w.free old).vars = w.vars := by cases old <;> rfl
  have hc : (w.free old).cache = w.cache := by cases old <;> rfl
  have hfi : (w.free old).files = w.files := by cases old <;> rfl
  refine ⟨fun y => ?_, hfi.trans h.files, fun y z a b ha hb hab => ?_, fun e he => ?_, fun y a ha e he => ?_⟩
  · simp only [World.put, set, hvars]
    by_cases hy : y = x
    · rw [if_pos hy, if_pos hy]
      exact hf.is.congr hnew hnext.ge
    · rw [if_neg hy, if_neg hy]
      exact (h.vars y).congr (fun a ha _ => hother y hy a ha) hnext.ge
  · simp only [World.put, set, hvars] at ha hb
    split_ifs at ha hb with h1 h2 h2
    · rw [h1, h2]
    · cases ha; exact absurd hab.symm (hf.vars z b hb)
    · cases hb; exact absurd hab (hf.vars y a ha)
    · exact h.one y z a b ha hb hab
  · simp only [World.put, hc] at he
    obtain ⟨g1, g2, g3⟩ := h.cache e he
    refine ⟨?_, ?_, ?_⟩
    · simp only [World.put, hnext]; exact g1
    · simp only [World.put, hcache e he]; exact g2
    · simp only [World.put, hcache e he]; exact g3
  · simp only [World.put, set, hvars, hc] at ha he
    split_ifs at ha with h1
    · cases ha; exact hf.cache e he
    · exact h.apart y a ha e he

/-- A variable loses its object. -/
theorem Inv.clear (h : Inv compile w s) {x : ℕ} {old : Option Impl} (ho : w.vars x = some old) {o : Option (Option Impl)} {q : Option (Option (Vsop V))}
    (hq : o = none ∧ q = none ∨ o = some none ∧ q = some none) : Inv compile ((w.free old).put x o) ⟨set s.vars x q, s.files⟩ := by
  have hother : ∀ y, y ≠ x → ∀ a, w.vars y = some (some a) → (w.free old).mods a.state = w.mods a.state := by
    intro y hy a ha
    rcases old with _ | b
    · rfl
    · exact if_neg fun e => hy (h.one y x a b ha ho e)
  have hcache : ∀ e ∈ w.cache, (w.free old).mods e.2 = w.mods e.2 := by
    intro e he
    rcases old with _ | b
    · rfl
    · exact if_neg (h.apart x b ho e he).symm
  have hnext : (w.free old).next = w.next := by cases old <;> rfl
  have hvars : (w.free old).vars = w.vars := by cases old <;> rfl
  have hc : (w.free old).cache = w.cache := by cases old <;> rfl
  have hfi : (w.free old).files = w.files := by cases old <;> rfl
  have hno : ∀ a, o ≠ some (some a) := by rcases hq with ⟨rfl, -⟩ | ⟨rfl, -⟩ <;> simp
  refine ⟨fun y => ?_, hfi.trans h.files, fun y z a b ha hb hab => ?_, fun e he => ?_, fun y a ha e he => ?_⟩
  · simp only [World.put, set, hvars]
    by_cases hy : y = x
    · rw [if_pos hy, if_pos hy]
      rcases hq with ⟨rfl, rfl⟩ | ⟨rfl, rfl⟩ <;> trivial
    · rw [if_neg hy, if_neg hy]
      exact (h.vars y).congr (fun a ha _ => hother y hy a ha) hnext.ge
  · simp only [World.put, set, hvars] at ha hb
    split_ifs at ha hb with h1 h2 h2
    · exact absurd ha (hno a)
    · exact absurd ha (hno a)
    · exact absurd hb (hno b)
    · exact h.one y z a b ha hb hab
  · simp only [World.put, hc] at he
    obtain ⟨g1, g2, g3⟩ := h.cache e he
    refine ⟨?_, ?_, ?_⟩
    · simp only [World.put, hnext]; exact g1
    · simp only [World.put, hcache e he]; exact g2
    · simp only [World.put, hcache e he]; exact g3
  · simp only [World.put, set, hvars, hc] at ha he
    split_ifs at ha with h1
    · exact absurd ha (hno a)
    · exact h.apart y a ha e he

/-- A variable without object takes over that of another one. -/
theorem Inv.take (h : Inv compile w s) {x y : ℕ} (hxy : x ≠ y) {o : Option Impl} {q : Option (Vsop V)} (hx : w.vars x = some o) (hq : s.vars x = some q)
    (hy : ∀ a, w.vars y ≠ some (some a)) : Inv compile ((w.put y (some o)).put x (some none)) ⟨set (set s.vars y (some q)) x (some none), s.files⟩ := by
  refine ⟨fun z => ?_, h.files, fun z z' a b ha hb hab => ?_, h.cache, fun z a ha e he => ?_⟩
  · simp only [World.put, set]
    by_cases h1 : z = x
    · rw [if_pos h1, if_pos h1]; trivial
    · rw [if_neg h1, if_neg h1]
      by_cases h2 : z = y
      · rw [if_pos h2, if_pos h2]
        have := h.vars x
        rw [hx, hq] at this
        exact this.congr (fun _ _ _ => rfl) le_rfl
      · rw [if_neg h2, if_neg h2]
        exact (h.vars z).congr (fun _ _ _ => rfl) le_rfl
  · have key : ∀ z a, ((w.put y (some o)).put x (some none)).vars z = some (some a) → z ≠ x ∧ (z = y ∧ w.vars x = some (some a) ∨ z ≠ y ∧ w.vars z = some (some a)) := by
      intro z a ha
      simp only [World.put, set] at ha
      split_ifs at ha with h1 h2
      · cases ha
      · exact ⟨h1, .inl ⟨h2, by rw [hx, ha]⟩⟩
      · exact ⟨h1, .inr ⟨h2, ha⟩⟩
    obtain ⟨z1, ⟨z2, z3⟩ | ⟨z2, z3⟩⟩ := key z a ha <;> obtain ⟨y1, ⟨y2, y3⟩ | ⟨y2, y3⟩⟩ := key z' b hb
    · rw [z2, y2]
    · exact absurd (h.one x z' a b z3 y3 hab).symm y1
    · exact absurd (h.one z x a b z3 y3 hab) z1
    · exact h.one z z' a b z3 y3 hab
  · simp only [World.put, set] at ha
    split_ifs at ha with h1 h2
    · cases ha
    · rw [ha] at hx; exact h.apart x a hx e he
    · exact h.apart z a ha e he

end

section
variable {compile : VsopExpr → Option V} {mus : ℕ → ℝ} {w : World V} {s : Vals V}

/-- The constructor. -/
theorem construct_ok (h : Inv compile w s) (name : List Char) (thresh : Dbl) :
    (planet compile mus name thresh = none ∧ w.construct compile mus name thresh = some (w, none)) ∨
    ∃ p w' im, planet compile mus name thresh = some p ∧ w.construct compile mus name thresh = some (w', some im) ∧ Inv compile w' s ∧ Fresh w' im p ∧ w'.vars = w.vars := by
  unfold planet World.construct
  rcases vsopCheck name thresh with ⟨i, low⟩ | e | _
  · dsimp only
    rcases hc : w.find (i, thresh) with _ | e
    · rcases hv : compile (vsopExpr (i, thresh)) with _ | v
      · exact .inl ⟨rfl, rfl⟩
      · refine .inr ⟨_, _, _, rfl, rfl, ?_⟩
        have h1 := h.alloc v
        have h2 : Inv compile { w.alloc v with cache := ((i, thresh), (w.alloc v).next - 1) :: (w.alloc v).cache } s := by
          refine ⟨fun x => (h1.vars x).congr (fun _ _ _ => rfl) le_rfl, h1.files, h1.one, fun e he => ?_, fun x a ha e he => ?_⟩
          · rcases List.mem_cons.1 he with rfl | he
            · have : (w.alloc v).mods ((w.alloc v).next - 1) = some v := if_pos rfl
              refine ⟨Nat.lt_succ_self _, ?_, ?_⟩
              · exact this.trans hv.symm
              · simp only [this, Option.isSome_some]
            · exact h1.cache e he
          · rcases List.mem_cons.1 he with rfl | he
            · exact (h.lt ha).ne
            · exact h1.apart x a ha e he
        exact ⟨h2.alloc v, h2.newest (vsopImpl mus i low thresh v), rfl⟩
    · unfold World.find at hc
      have he := List.find?_some hc
      have hm := List.mem_of_find?_eq_some hc
      simp only [Bool.and_eq_true, decide_eq_true_eq] at he
      obtain ⟨g1, g2, g3⟩ := h.cache e hm
      obtain ⟨v, hv⟩ := Option.isSome_iff_exists.1 g3
      have hk : e.1 = (i, thresh) := Prod.ext he.1 (beq_eq _ _ he.2)
      rw [hk] at g2
      refine .inr ⟨vsopImpl mus i low thresh v, w.alloc v, (w.alloc v).newest _ low thresh, ?_, ?_, h.alloc v, h.newest (vsopImpl mus i low thresh v), rfl⟩
      · rw [← g2, hv]; rfl
      · simp only [Option.bind_eq_bind, hv]; rfl
  · exact .inl ⟨rfl, rfl⟩
  · exact .inl ⟨rfl, rfl⟩

/-- The copy constructor of `impl`. -/
theorem copyImpl_ok (h : Inv compile w s) {im : Impl} {p : Vsop V} (hi : im.Is w p) :
    ∃ w' im', w.copyImpl im = some (w', im') ∧ Inv compile w' s ∧ Fresh w' im' p ∧ w'.vars = w.vars := by
  refine ⟨w.alloc p.fn, (w.alloc p.fn).newest im.mu im.name im.thresh, ?_, h.alloc _, ?_, rfl⟩
  · unfold World.copyImpl; rw [hi.fn]; rfl
  · rw [hi.mu, hi.name, hi.thresh]; exact h.newest p

/-- Both machines do undefined behaviour, or see the same and stay together. -/
def Together (compile : VsopExpr → Option V) (a : Option (World V × Obs)) (b : Option (Vals V × Obs)) : Prop :=
  a = none ∧ b = none ∨ ∃ w s o, a = some (w, o) ∧ b = some (s, o) ∧ Inv compile w s

theorem Together.mk {w : World V} {s : Vals V} (h : Inv compile w s) (o : Obs) : Together compile (some (w, o)) (some (s, o)) := .inr ⟨w, s, o, rfl, rfl, h⟩

theorem step_together (eval : V → ℝ → Fin 6 → ℝ) (d5 : Dbl) (h : Inv compile w s) (op : Op) :
    Together compile (w.step compile mus eval d5 op) (s.step compile mus eval d5 op) := by
  have files : ∀ f : ℕ → File V, Inv compile { w with files := f } { s with files := f } := fun f =>
    ⟨fun x => (h.vars x).congr (fun _ _ _ => rfl) le_rfl, rfl, h.one, h.cache, h.apart⟩
  have hnull : ∀ x, w.vars x = none ∧ s.vars x = none ∨ w.vars x = some none ∧ s.vars x = some none ∨
      ∃ im p, w.vars x = some (some im) ∧ s.vars x = some (some p) ∧ im.Is w p := by
    intro x
    have := h.vars x
    generalize w.vars x = o at this
    generalize s.vars x = q at this
    rcases o with _ | _ | im <;> rcases q with _ | _ | p
    · simp
    · cases this
    · cases this
    · cases this
    · simp
    · cases this
    · cases this
    · cases this
    · exact .inr (.inr ⟨im, p, rfl, rfl, this⟩)
  cases op with
  | make x name thresh =>
    unfold World.step Vals.step
    dsimp only
    rcases hnull x with ⟨h1, h2⟩ | ⟨h1, h2⟩ | ⟨im, p, h1, h2, h3⟩
    · rw [h1, h2]
      rcases construct_ok (mus := mus) h name thresh with ⟨c1, c2⟩ | ⟨p, w', im, c1, c2, c3, c4, c5⟩
      · rw [c1, c2]; exact .mk h _
      · rw [c1, c2]
        exact .mk (c3.replace c4 (old := none) (.inr ⟨by rw [c5, h1], rfl⟩)) _
    · rw [h1, h2]; exact .mk h _
    · rw [h1, h2]; exact .mk h _
  | copy x y =>
    unfold World.step Vals.step
    dsimp only
    rcases hnull x with ⟨h1, h2⟩ | ⟨h1, h2⟩ | ⟨im, p, h1, h2, h3⟩
    · rw [h1, h2]; exact .mk h _
    · rcases hnull y with ⟨g1, g2⟩ | ⟨g1, g2⟩ | ⟨im', p', g1, g2, g3⟩
      · rw [h1, h2, g1, g2]; exact .inl ⟨rfl, rfl⟩
      · rw [h1, h2, g1, g2]; exact .mk h _
      · rw [h1, h2, g1, g2]; exact .mk h _
    · rcases hnull y with ⟨g1, g2⟩ | ⟨g1, g2⟩ | ⟨im', p', g1, g2, g3⟩
      · rw [h1, h2, g1, g2]
        obtain ⟨w', im', c1, c2, c3, c4⟩ := copyImpl_ok h h3
        simp only [Option.bind_eq_bind, Option.bind_some, c1]
        exact .mk (c2.replace c3 (old := none) (.inr ⟨by rw [c4, g1], rfl⟩)) _
      · rw [h1, h2, g1, g2]; exact .mk h _
      · rw [h1, h2, g1, g2]; exact .mk h _
  | move x y =>
    unfold World.step Vals.step
    dsimp only
    have key : ∀ o q, w.vars x = some o → s.vars x = some q → w.vars y = none → Inv compile ((w.put y (some o)).put x (some none)) ⟨set (set s.vars y (some q)) x (some none), s.files⟩ :=
      fun o q e1 e2 e3 => h.take (fun e => by rw [e, e3] at e1; cases e1) e1 e2 (by rw [e3]; simp)
    rcases hnull x with ⟨h1, h2⟩ | ⟨h1, h2⟩ | ⟨im, p, h1, h2, h3⟩
    · rw [h1, h2]; exact .mk h _
    · rcases hnull y with ⟨g1, g2⟩ | ⟨g1, g2⟩ | ⟨im', p', g1, g2, g3⟩
      · rw [h1, h2, g1, g2]; exact .mk (key _ _ h1 h2 g1) _
      · rw [h1, h2, g1, g2]; exact .mk h _
      · rw [h1, h2, g1, g2]; exact .mk h _
    · rcases hnull y with ⟨g1, g2⟩ | ⟨g1, g2⟩ | ⟨im', p', g1, g2, g3⟩
      · rw [h1, h2, g1, g2]; exact .mk (key _ _ h1 h2 g1) _
      · rw [h1, h2, g1, g2]; exact .mk h _
      · rw [h1, h2, g1, g2]; exact .mk h _
  | assign x y =>
    unfold World.step Vals.step
    dsimp only
    by_cases hxy : x = y
    · subst hxy
      rcases hnull x with ⟨h1, h2⟩ | ⟨h1, h2⟩ | ⟨im, p, h1, h2, h3⟩ <;> rw [h1, h2]
      · exact .mk h _
      · simp only [if_true]; exact .mk h _
      · simp only [if_true]; exact .mk h _
    · rcases hnull x with ⟨h1, h2⟩ | ⟨h1, h2⟩ | ⟨im, p, h1, h2, h3⟩
      · rw [h1, h2]; exact .mk h _
      · rcases hnull y with ⟨g1, g2⟩ | ⟨g1, g2⟩ | ⟨im', p', g1, g2, g3⟩
        · rw [h1, h2, g1, g2]; exact .mk h _
        · rw [h1, h2, g1, g2]; simp only [if_neg hxy]; exact .inl ⟨rfl, rfl⟩
        · rw [h1, h2, g1, g2]; simp only [if_neg hxy]; exact .inl ⟨rfl, rfl⟩
      · obtain ⟨w', im'', c1, c2, c3, c4⟩ := copyImpl_ok h h3
        rcases hnull y with ⟨g1, g2⟩ | ⟨g1, g2⟩ | ⟨im', p', g1, g2, g3⟩
        · rw [h1, h2, g1, g2]; exact .mk h _
        · rw [h1, h2, g1, g2]; simp only [if_neg hxy, Option.bind_eq_bind, Option.bind_some, c1]
          exact .mk (c2.replace c3 (.inl (by rw [c4, g1]))) _
        · rw [h1, h2, g1, g2]; simp only [if_neg hxy, Option.bind_eq_bind, Option.bind_some, c1]
          exact .mk (c2.replace c3 (.inl (by rw [c4, g1]))) _
  | moveAssign x y =>
    unfold World.step Vals.step
    dsimp only
    by_cases hxy : x = y
    · subst hxy
      rcases hnull x with ⟨h1, h2⟩ | ⟨h1, h2⟩ | ⟨im, p, h1, h2, h3⟩ <;> rw [h1, h2]
      · exact .mk h _
      · simp only [if_true]; exact .mk h _
      · simp only [if_true]; exact .mk h _
    · have key : ∀ o q old, w.vars x = some o → s.vars x = some q → w.vars y = some old →
          Inv compile (((w.free old).put y (some o)).put x (some none)) ⟨set (set s.vars y (some q)) x (some none), s.files⟩ := by
        intro o q old e1 e2 e3
        have k1 := h.clear e3 (o := some none) (q := some none) (.inr ⟨rfl, rfl⟩)
        have hvars : (w.free old).vars = w.vars := by cases old <;> rfl
        have k2 := k1.take hxy (o := o) (q := q) (by simp only [World.put, set, if_neg hxy, hvars, e1]) (by simp only [set, if_neg hxy, e2])
          (by simp only [World.put, set, if_true]; simp)
        have a1 : ((((w.free old).put y (some none)).put y (some o)).put x (some none)) = (((w.free old).put y (some o)).put x (some none)) := by
          simp only [World.put]
          congr 1
          funext z
          simp only [set]
          split_ifs <;> rfl
        have a2 : set (set (set s.vars y (some none)) y (some q)) x (some none) = set (set s.vars y (some q)) x (some none) := by
          funext z
          simp only [set]
          split_ifs <;> rfl
        rw [a1] at k2
        dsimp only at k2
        rw [a2] at k2
        exact k2
      rcases hnull x with ⟨h1, h2⟩ | ⟨h1, h2⟩ | ⟨im, p, h1, h2, h3⟩
      · rw [h1, h2]; exact .mk h _
      · rcases hnull y with ⟨g1, g2⟩ | ⟨g1, g2⟩ | ⟨im', p', g1, g2, g3⟩
        · rw [h1, h2, g1, g2]; exact .mk h _
        · rw [h1, h2, g1, g2]; simp only [if_neg hxy]; exact .mk (key _ _ _ h1 h2 g1) _
        · rw [h1, h2, g1, g2]; simp only [if_neg hxy]; exact .mk (key _ _ _ h1 h2 g1) _
      · rcases hnull y with ⟨g1, g2⟩ | ⟨g1, g2⟩ | ⟨im', p', g1, g2, g3⟩
        · rw [h1, h2, g1, g2]; exact .mk h _
        · rw [h1, h2, g1, g2]; simp only [if_neg hxy]; exact .mk (key _ _ _ h1 h2 g1) _
        · rw [h1, h2, g1, g2]; simp only [if_neg hxy]; exact .mk (key _ _ _ h1 h2 g1) _
  | destroy x =>
    unfold World.step Vals.step
    dsimp only
    rcases hnull x with ⟨h1, h2⟩ | ⟨h1, h2⟩ | ⟨im, p, h1, h2, h3⟩ <;> rw [h1, h2]
    · exact .mk h _
    · exact .mk (h.clear h1 (.inl ⟨rfl, rfl⟩)) _
    · exact .mk (h.clear h1 (.inl ⟨rfl, rfl⟩)) _
  | save x f =>
    unfold World.step Vals.step
    dsimp only
    rcases hnull x with ⟨h1, h2⟩ | ⟨h1, h2⟩ | ⟨im, p, h1, h2, h3⟩ <;> rw [h1, h2]
    · exact .mk h _
    · rw [h.files]; exact .mk (files _) _
    · simp only [Option.bind_eq_bind, h3.fn, Option.bind_some, h3.mu, h3.name, h3.thresh, h.files]
      exact .mk (files _) _
  | load f x =>
    unfold World.step Vals.step
    dsimp only
    have key : ∀ old, w.vars x = some old → (∃ q, s.vars x = some q) → Together compile (match w.files f with
      | .bad => do
        let (w, o) ← w.construct compile mus "mercury".toList d5
        match o with
        | none => return (w, .thrown)
        | some im => return ((w.free old).put x (some (some im)), .thrown)
      | .null => some ((w.free old).put x (some none), .done)
      | .obj p => some (((w.alloc p.fn).free old).put x (some (some ((w.alloc p.fn).newest p.mu p.name p.thresh))), .done))
        (match s.vars x, s.files f with
        | none, _ => some (s, .skip)
        | some _, .null => some ({ s with vars := set s.vars x (some none) }, .done)
        | some _, .obj p => some ({ s with vars := set s.vars x (some (some p)) }, .done)
        | some _, .bad =>
          match planet compile mus "mercury".toList d5 with
          | none => some (s, .thrown)
          | some p => some ({ s with vars := set s.vars x (some (some p)) }, .thrown)) := by
      rintro old e1 ⟨q, e2⟩
      rw [h.files, e2]
      rcases s.files f with _ | _ | p
      · dsimp only
        rcases construct_ok (mus := mus) h "mercury".toList d5 with ⟨c1, c2⟩ | ⟨p, w', im, c1, c2, c3, c4, c5⟩
        · rw [c1, c2]; exact .mk h _
        · rw [c1, c2]; exact .mk (c3.replace c4 (.inl (by rw [c5, e1]))) _
      · exact .mk (h.clear e1 (.inr ⟨rfl, rfl⟩)) _
      · exact .mk ((h.alloc p.fn).replace (h.newest p) (.inl e1)) _
    rcases hnull x with ⟨h1, h2⟩ | ⟨h1, h2⟩ | ⟨im, p, h1, h2, h3⟩
    · rw [h1, h2]; exact .mk h _
    · have := key _ h1 ⟨_, h2⟩; rw [h1]; exact this
    · have := key _ h1 ⟨_, h2⟩; rw [h1]; exact this
  | corrupt f =>
    unfold World.step Vals.step
    dsimp only
    rw [h.files]; exact .mk (files _) _
  | eph x t =>
    unfold World.step Vals.step
    dsimp only
    rcases hnull x with ⟨h1, h2⟩ | ⟨h1, h2⟩ | ⟨im, p, h1, h2, h3⟩ <;> rw [h1, h2]
    · exact .mk h _
    · exact .inl ⟨rfl, rfl⟩
    · simp only [Option.bind_eq_bind, Option.bind_some, h3.self, h3.fn, h3.mu, h3.name, h3.thresh]
      exact .mk h _
  | name x =>
    unfold World.step Vals.step
    dsimp only
    rcases hnull x with ⟨h1, h2⟩ | ⟨h1, h2⟩ | ⟨im, p, h1, h2, h3⟩ <;> rw [h1, h2]
    · exact .mk h _
    · exact .inl ⟨rfl, rfl⟩
    · simp only [Option.bind_eq_bind, Option.bind_some, h3.name, h3.thresh]
      exact .mk h _

theorem run_together (eval : V → ℝ → Fin 6 → ℝ) (d5 : Dbl) (ops : List Op) : ∀ {w : World V} {s : Vals V}, Inv compile w s →
    w.run compile mus eval d5 ops = s.run compile mus eval d5 ops := by
  induction ops with
  | nil => intros; rfl
  | cons o os ih =>
    intro w s h
    unfold World.run Vals.run
    rcases step_together (mus := mus) eval d5 h o with ⟨h1, h2⟩ | ⟨w', s', a, h1, h2, h3⟩
    · rw [h1, h2]; rfl
    · rw [h1, h2]
      simp only [Option.bind_eq_bind, Option.bind_some, ih h3]

end

/-- **C95**: programs that construct, copy, move, assign, destroy, save, load and evaluate VSOP2013 planets in any order see what they would see if the variables were plain values: no
object calls into compiled code that is gone, and none is changed by what happens to another. -/
theorem C95_values (compile : VsopExpr → Option V) (mus : ℕ → ℝ) (eval : V → ℝ → Fin 6 → ℝ) (d5 : Dbl) (ops : List Op) :
    World.init.run compile mus eval d5 ops = Vals.init.run compile mus eval d5 ops :=
  run_together eval d5 ops ⟨fun _ => trivial, rfl, (fun _ _ _ _ h => by cases h), (fun _ h => by cases h), (fun _ _ h => by cases h)⟩

/-- Programs that move out of a variable. -/
def Op.moves : Op → Prop
  | .move _ _ => True
  | .moveAssign _ _ => True
  | _ => False

/-- The variables an operation may change. -/
def Op.writes (y : ℕ) : Op → Prop
  | .make x _ _ => x = y
  | .copy _ z => z = y
  | .move x z => x = y ∨ z = y
  | .assign _ z => z = y
  | .moveAssign x z => x = y ∨ z = y
  | .destroy x => x = y
  | .load _ x => x = y
  | _ => False

/-- The files an operation may change. -/
def Op.writesFile (f : ℕ) : Op → Prop
  | .save _ g => g = f
  | .corrupt g => g = f
  | _ => False

section
variable {compile : VsopExpr → Option V} {mus : ℕ → ℝ} {eval : V → ℝ → Fin 6 → ℝ} {d5 : Dbl}

/-- No variable was moved from and no archive holds a null pointer. -/
def Vals.Full (s : Vals V) : Prop := (∀ x, s.vars x ≠ some none) ∧ ∀ f, s.files f ≠ .null

theorem set_ne {α : Type} {f : ℕ → α} {a b : α} (hf : ∀ x, f x ≠ b) (ha : a ≠ b) (y : ℕ) : ∀ x, set f y a x ≠ b := by
  intro x
  unfold set
  split_ifs
  · exact ha
  · exact hf x

theorem full_step {s : Vals V} (h : s.Full) (o : Op) (ho : ¬ o.moves) : ∃ s' a, s.step compile mus eval d5 o = some (s', a) ∧ s'.Full := by
  cases o with
  | make x name thresh =>
    unfold Vals.step
    dsimp only
    rcases s.vars x with _ | q
    · rcases planet compile mus name thresh with _ | p
      · exact ⟨_, _, rfl, h⟩
      · exact ⟨_, _, rfl, set_ne h.1 (by simp) x, h.2⟩
    · exact ⟨_, _, rfl, h⟩
  | copy x y =>
    unfold Vals.step
    dsimp only
    have hx := h.1 x
    revert hx
    rcases s.vars x with _ | _ | p <;> intro hx
    · exact ⟨_, _, rfl, h⟩
    · exact absurd rfl hx
    · rcases s.vars y with _ | q
      · exact ⟨_, _, rfl, set_ne h.1 (by simp) y, h.2⟩
      · exact ⟨_, _, rfl, h⟩
  | move x y => exact absurd trivial ho
  | assign x y =>
    unfold Vals.step
    dsimp only
    have hx := h.1 x
    revert hx
    rcases s.vars x with _ | _ | p <;> intro hx
    · exact ⟨_, _, rfl, h⟩
    · exact absurd rfl hx
    · rcases s.vars y with _ | q
      · exact ⟨_, _, rfl, h⟩
      · dsimp only
        split_ifs
        · exact ⟨_, _, rfl, h⟩
        · exact ⟨_, _, rfl, set_ne h.1 (by simp) y, h.2⟩
  | moveAssign x y => exact absurd trivial ho
  | destroy x =>
    unfold Vals.step
    dsimp only
    rcases s.vars x with _ | q
    · exact ⟨_, _, rfl, h⟩
    · exact ⟨_, _, rfl, set_ne h.1 (by simp) x, h.2⟩
  | save x f =>
    unfold Vals.step
    dsimp only
    have hx := h.1 x
    revert hx
    rcases s.vars x with _ | _ | p <;> intro hx
    · exact ⟨_, _, rfl, h⟩
    · exact absurd rfl hx
    · exact ⟨_, _, rfl, h.1, set_ne h.2 (by simp) f⟩
  | load f x =>
    unfold Vals.step
    dsimp only
    have hf := h.2 f
    revert hf
    rcases s.vars x with _ | q
    · exact fun _ => ⟨_, _, rfl, h⟩
    · rcases s.files f with _ | _ | p <;> intro hf
      · dsimp only
        rcases planet compile mus "mercury".toList d5 with _ | p
        · exact ⟨_, _, rfl, h⟩
        · exact ⟨_, _, rfl, set_ne h.1 (by simp) x, h.2⟩
      · exact absurd rfl hf
      · exact ⟨_, _, rfl, set_ne h.1 (by simp) x, h.2⟩
  | corrupt f => exact ⟨_, _, rfl, h.1, set_ne h.2 (by simp) f⟩
  | eph x t =>
    unfold Vals.step
    dsimp only
    have hx := h.1 x
    revert hx
    rcases s.vars x with _ | _ | p <;> intro hx
    · exact ⟨_, _, rfl, h⟩
    · exact absurd rfl hx
    · exact ⟨_, _, rfl, h⟩
  | name x =>
    unfold Vals.step
    dsimp only
    have hx := h.1 x
    revert hx
    rcases s.vars x with _ | _ | p <;> intro hx
    · exact ⟨_, _, rfl, h⟩
    · exact absurd rfl hx
    · exact ⟨_, _, rfl, h⟩

theorem full_run (ops : List Op) : ∀ {s : Vals V}, s.Full → (∀ o ∈ ops, ¬ o.moves) → ∃ l, s.run compile mus eval d5 ops = some l ∧ l.length = ops.length := by
  induction ops with
  | nil => exact fun _ _ => ⟨[], rfl, rfl⟩
  | cons o os ih =>
    intro s h ho
    obtain ⟨s', a, h1, h2⟩ := full_step (compile := compile) (mus := mus) (eval := eval) (d5 := d5) h o (ho o (by simp))
    obtain ⟨l, h3, h4⟩ := ih h2 fun o' h' => ho o' (by simp [h'])
    refine ⟨a :: l, ?_, by simp [h4]⟩
    unfold Vals.run
    rw [h1]
    simp only [Option.bind_eq_bind, Option.bind_some, h3]
    rfl

theorem set_other {α : Type} (f : ℕ → α) {x y : ℕ} (h : x ≠ y) (a : α) : set f x a y = f y := if_neg h.symm

theorem set_same {α : Type} (f : ℕ → α) (x : ℕ) (a : α) : set f x a x = a := if_pos rfl

/-- What an operation does not write stays. -/
theorem step_frame {s s' : Vals V} {o : Op} {a : Obs} (h : s.step compile mus eval d5 o = some (s', a)) :
    (∀ y, ¬ o.writes y → s'.vars y = s.vars y) ∧ ∀ f, ¬ o.writesFile f → s'.files f = s.files f := by
  cases o <;> simp only [Vals.step] at h <;> simp only [Op.writes, Op.writesFile, not_or] <;> (try split at h) <;> (try split at h) <;>
    simp only [Option.some.injEq, Prod.mk.injEq, reduceCtorEq, Option.map_eq_some_iff] at h <;>
    first
    | (obtain ⟨rfl, -⟩ := h; refine ⟨fun y hy => ?_, fun f hf => ?_⟩ <;> simp_all [set_other])
    | (obtain ⟨p, -, rfl, -⟩ := h; refine ⟨fun y hy => ?_, fun f hf => ?_⟩ <;> simp_all [set_other])

/-- The values after some operations. -/
noncomputable def Vals.after (s : Vals V) (compile : VsopExpr → Option V) (mus : ℕ → ℝ) (eval : V → ℝ → Fin 6 → ℝ) (d5 : Dbl) : List Op → Option (Vals V)
  | [] => some s
  | o :: os => do
    let (s, _) ← s.step compile mus eval d5 o
    s.after compile mus eval d5 os

theorem run_append (ops : List Op) (o : Op) : ∀ {s : Vals V} {l : List Obs}, s.run compile mus eval d5 (ops ++ [o]) = some l →
    ∃ s' s'' a, s.after compile mus eval d5 ops = some s' ∧ s'.step compile mus eval d5 o = some (s'', a) ∧ l.getLast? = some a := by
  induction ops with
  | nil =>
    intro s l h
    simp only [List.nil_append, Vals.run, Option.bind_eq_bind, Option.bind_some, Option.bind_eq_some_iff] at h
    obtain ⟨⟨s', a⟩, h1, h2⟩ := h
    cases h2
    exact ⟨s, s', a, rfl, h1, rfl⟩
  | cons o' os ih =>
    intro s l h
    simp only [List.cons_append, Vals.run, Option.bind_eq_bind, Option.bind_eq_some_iff] at h
    obtain ⟨⟨s1, a1⟩, h1, l', h2, h3⟩ := h
    cases h3
    obtain ⟨s', s'', a, g1, g2, g3⟩ := ih h2
    refine ⟨s', s'', a, ?_, g2, ?_⟩
    · simp only [Vals.after, Option.bind_eq_bind, h1, Option.bind_some, g1]
    · rw [List.getLast?_cons, g3]; rfl

theorem after_append (ops : List Op) (o : Op) : ∀ {s s' : Vals V}, s.after compile mus eval d5 (ops ++ [o]) = some s' →
    ∃ s0 s1 a, s.after compile mus eval d5 ops = some s0 ∧ s0.step compile mus eval d5 o = some (s1, a) ∧ s1 = s' := by
  induction ops with
  | nil =>
    intro s s' h
    simp only [List.nil_append, Vals.after, Option.bind_eq_bind, Option.bind_eq_some_iff] at h
    obtain ⟨⟨s1, a⟩, h1, h2⟩ := h
    cases h2
    exact ⟨s, s1, a, rfl, h1, rfl⟩
  | cons o' os ih =>
    intro s s' h
    simp only [List.cons_append, Vals.after, Option.bind_eq_bind, Option.bind_eq_some_iff] at h
    obtain ⟨⟨s1, a1⟩, h1, h2⟩ := h
    obtain ⟨t0, t1, a, g1, g2, g3⟩ := ih h2
    exact ⟨t0, t1, a, by simp only [Vals.after, Option.bind_eq_bind, h1, Option.bind_some, g1], g2, g3⟩

theorem after_frame (ops : List Op) : ∀ {s s' : Vals V}, s.after compile mus eval d5 ops = some s' →
    (∀ y, (∀ o ∈ ops, ¬ o.writes y) → s'.vars y = s.vars y) ∧ ∀ f, (∀ o ∈ ops, ¬ o.writesFile f) → s'.files f = s.files f := by
  induction ops with
  | nil => intro s s' h; cases h; exact ⟨fun _ _ => rfl, fun _ _ => rfl⟩
  | cons o os ih =>
    intro s s' h
    simp only [Vals.after, Option.bind_eq_bind, Option.bind_eq_some_iff] at h
    obtain ⟨⟨s1, a1⟩, h1, h2⟩ := h
    obtain ⟨k1, k2⟩ := step_frame h1
    obtain ⟨g1, g2⟩ := ih h2
    refine ⟨fun y hy => ?_, fun f hf => ?_⟩
    · rw [g1 y fun o' h' => hy o' (by simp [h']), k1 y (hy o (by simp))]
    · rw [g2 f fun o' h' => hf o' (by simp [h']), k2 f (hf o (by simp))]

theorem run_cons {s s' : Vals V} {o : Op} {a : Obs} (h : s.step compile mus eval d5 o = some (s', a)) {os : List Op} {l : List Obs}
    (hl : s.run compile mus eval d5 (o :: os) = some l) : ∃ l', s'.run compile mus eval d5 os = some l' ∧ l = a :: l' := by
  simp only [Vals.run, Option.bind_eq_bind, h, Option.bind_some, Option.bind_eq_some_iff] at hl
  obtain ⟨l', h1, h2⟩ := hl
  cases h2
  exact ⟨l', h1, rfl⟩

/-- **C95**: a program without moves has no undefined behaviour, whatever it copies, destroys or loads. -/
theorem C95_no_moves (compile : VsopExpr → Option V) (mus : ℕ → ℝ) (eval : V → ℝ → Fin 6 → ℝ) (d5 : Dbl) (ops : List Op) (h : ∀ o ∈ ops, ¬ o.moves) :
    ∃ l, World.init.run compile mus eval d5 ops = some l ∧ l.length = ops.length := by
  rw [C95_values]
  exact full_run ops ⟨fun _ => by simp [Vals.init], fun _ => by simp [Vals.init]⟩ h

/-- **C95**: a copy keeps its ephemerides whatever happens to the original and to other objects (assignments, destruction, moves, archives). -/
theorem C95_copy (compile : VsopExpr → Option V) (mus : ℕ → ℝ) (eval : V → ℝ → Fin 6 → ℝ) (d5 : Dbl) {name : List Char} {thresh : Dbl} {p : Vsop V}
    (hp : planet compile mus name thresh = some p) (ops : List Op) (h : ∀ o ∈ ops, ¬ o.writes 1) (t : ℝ) {l : List Obs}
    (hl : World.init.run compile mus eval d5 (.make 0 name thresh :: .copy 0 1 :: (ops ++ [.eph 1 t])) = some l) :
    l.getLast? = some (.state (vsopEph eval p t)) := by
  rw [C95_values] at hl
  have h1 : (Vals.init : Vals V).step compile mus eval d5 (.make 0 name thresh) = some (⟨set (fun _ => none) 0 (some (some p)), fun _ => .bad⟩, .done) := by
    simp only [Vals.step, Vals.init, hp]
  obtain ⟨l1, h2, rfl⟩ := run_cons h1 hl
  have h3 : (⟨set (fun _ => none) 0 (some (some p)), fun _ => .bad⟩ : Vals V).step compile mus eval d5 (.copy 0 1) =
      some (⟨set (set (fun _ => none) 0 (some (some p))) 1 (some (some p)), fun _ => .bad⟩, .done) := rfl
  obtain ⟨l2, h4, rfl⟩ := run_cons h3 h2
  obtain ⟨s', s'', a, g1, g2, g3⟩ := run_append ops _ h4
  have g4 : s'.vars 1 = some (some p) := (after_frame ops g1).1 1 h
  simp only [Vals.step, g4, Option.map_some, Option.some.injEq, Prod.mk.injEq] at g2
  rw [List.getLast?_cons, List.getLast?_cons, g3, ← g2.2]
  rfl

/-- **C95**: an archive gives the planet back, whatever happened to the planet in the mean time; the variable into which it is read may hold any other planet. -/
theorem C95_archive (compile : VsopExpr → Option V) (mus : ℕ → ℝ) (eval : V → ℝ → Fin 6 → ℝ) (d5 : Dbl) {name name' : List Char} {thresh thresh' : Dbl} {p p' : Vsop V}
    (hp : planet compile mus name thresh = some p) (hp' : planet compile mus name' thresh' = some p') (ops : List Op)
    (h : ∀ o ∈ ops, ¬ o.writesFile 0 ∧ ¬ o.writes 1) (t : ℝ) {l : List Obs}
    (hl : World.init.run compile mus eval d5 (.make 0 name thresh :: .make 1 name' thresh' :: .save 0 0 :: (ops ++ [.load 0 1] ++ [.eph 1 t])) = some l) :
    l.getLast? = some (.state (vsopEph eval p t)) := by
  rw [C95_values] at hl
  have h1 : (Vals.init : Vals V).step compile mus eval d5 (.make 0 name thresh) = some (⟨set (fun _ => none) 0 (some (some p)), fun _ => .bad⟩, .done) := by
    simp only [Vals.step, Vals.init, hp]
  obtain ⟨l1, h2, rfl⟩ := run_cons h1 hl
  have h1' : (⟨set (fun _ => none) 0 (some (some p)), fun _ => .bad⟩ : Vals V).step compile mus eval d5 (.make 1 name' thresh') =
      some (⟨set (set (fun _ => none) 0 (some (some p))) 1 (some (some p')), fun _ => .bad⟩, .done) := by
    simp only [Vals.step, set_other (fun _ => (none : Option (Option (Vsop V)))) (show (0 : ℕ) ≠ 1 by decide), hp']
  obtain ⟨l1', h2', rfl⟩ := run_cons h1' h2
  have h3 : (⟨set (set (fun _ => none) 0 (some (some p))) 1 (some (some p')), fun _ => .bad⟩ : Vals V).step compile mus eval d5 (.save 0 0) =
      some (⟨set (set (fun _ => none) 0 (some (some p))) 1 (some (some p')), set (fun _ => .bad) 0 (.obj p)⟩, .done) := rfl
  obtain ⟨l2, h4, rfl⟩ := run_cons h3 h2'
  obtain ⟨s', s'', a, g1, g2, g3⟩ := run_append _ _ h4
  obtain ⟨s0, s1, b, k1, k2, k3⟩ := after_append _ _ g1
  obtain ⟨f1, f2⟩ := after_frame ops k1
  have f3 : s0.vars 1 = some (some p') := f1 1 fun o ho => (h o ho).2
  have f4 : s0.files 0 = .obj p := f2 0 fun o ho => (h o ho).1
  simp only [Vals.step, f3, f4, Option.some.injEq, Prod.mk.injEq] at k2
  obtain ⟨rfl, -⟩ := k2
  subst k3
  simp only [Vals.step, set_same, Option.map_some, Option.some.injEq, Prod.mk.injEq] at g2
  rw [List.getLast?_cons, List.getLast?_cons, List.getLast?_cons, g3, ← g2.2]
  rfl

/-- **C95**: after a move the planet is in the new variable, and the old one is a trap: its ephemerides, its name, a copy of it are undefined behaviour. An archive of it can be written
without any complaint; reading that archive succeeds too, and makes a trap of the good planet of the variable into which it is read. -/
theorem C95_moved_from (compile : VsopExpr → Option V) (mus : ℕ → ℝ) (eval : V → ℝ → Fin 6 → ℝ) (d5 : Dbl) {name : List Char} {thresh : Dbl} {p : Vsop V}
    (hp : planet compile mus name thresh = some p) (t : ℝ) :
    World.init.run compile mus eval d5 [.make 0 name thresh, .move 0 1, .eph 1 t] = some [.done, .done, .state (vsopEph eval p t)] ∧
    World.init.run compile mus eval d5 [.make 0 name thresh, .move 0 1, .eph 0 t] = none ∧
    World.init.run compile mus eval d5 [.make 0 name thresh, .move 0 1, .name 0] = none ∧
    World.init.run compile mus eval d5 [.make 0 name thresh, .move 0 1, .copy 0 2] = none ∧
    World.init.run compile mus eval d5 [.make 0 name thresh, .move 0 1, .save 0 0, .load 0 1] = some [.done, .done, .done, .done] ∧
    World.init.run compile mus eval d5 [.make 0 name thresh, .move 0 1, .save 0 0, .load 0 1, .eph 1 t] = none := by
  simp only [C95_values]
  have h1 : (Vals.init : Vals V).step compile mus eval d5 (.make 0 name thresh) = some (⟨set (fun _ => none) 0 (some (some p)), fun _ => .bad⟩, .done) := by
    simp only [Vals.step, Vals.init, hp]
  have h2 : ∀ os, (Vals.init : Vals V).run compile mus eval d5 (.make 0 name thresh :: os) =
      ((⟨set (fun _ => none) 0 (some (some p)), fun _ => .bad⟩ : Vals V).run compile mus eval d5 os).bind fun l => some (.done :: l) := by
    intro os
    rw [Vals.run, h1]
    rfl
  simp only [h2]
  exact ⟨rfl, rfl, rfl, rfl, rfl, rfl⟩

/-- A case for the theorems above: `"Venus"` with threshold 0 is a planet, when heyoka compiles. -/
example (compile : VsopExpr → Option V) (v : V) (h : ∀ e, compile e = some v) (mus : ℕ → ℝ) :
    planet compile mus "Venus".toList 0 = some ⟨v, mus 2 * AU * AU * AU / (DAY2SEC * DAY2SEC), "venus".toList, 0⟩ := by
  have : vsopCheck "Venus".toList 0 = .ok (2, "venus".toList) := by decide +kernel
  unfold planet
  rw [this]
  simp only [h, Option.map_some]
  rfl

end
end Kep3.Cache.Life
