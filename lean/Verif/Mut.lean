import Verif.Basic

/-!
# Member functions that mutate an object

A C++ member function changes `*this` statement by statement; when it throws, the changes made so
far stay. `Mut σ α` keeps the state next to the outcome so that a half-done update is visible.
-/

namespace Kep3

/-- A member function on an object with data members `σ`: outcome and resulting object. -/
def Mut (σ α : Type _) := σ → Res α × σ

namespace Mut

variable {σ α β : Type _}

/-- Sequencing; after an exception or undefined behaviour nothing more runs. -/
def bind (m : Mut σ α) (f : α → Mut σ β) : Mut σ β := fun s =>
  match m s with
  | (.ok a, s') => f a s'
  | (.err e, s') => (.err e, s')
  | (.ub, s') => (.ub, s')

instance : Monad (Mut σ) where
  pure a := fun s => (.ok a, s)
  bind := bind

/-- A call that does not touch the object (a check, a cast, a computation). -/
def call (r : Res α) : Mut σ α := fun s => (r, s)

/-- An assignment to data members. -/
def assign (f : σ → σ) : Mut σ Unit := fun s => (.ok (), f s)

/-- A call that reads the object. -/
def read (f : σ → Res α) : Mut σ α := fun s => (f s, s)

@[simp] theorem pure_run (a : α) (s : σ) : (pure a : Mut σ α) s = (.ok a, s) := rfl
@[simp] theorem call_run (r : Res α) (s : σ) : (call r : Mut σ α) s = (r, s) := rfl
@[simp] theorem assign_run (f : σ → σ) (s : σ) : assign f s = (.ok (), f s) := rfl
@[simp] theorem read_run (f : σ → Res α) (s : σ) : read f s = (f s, s) := rfl

theorem bind_run (m : Mut σ α) (f : α → Mut σ β) (s : σ) :
    (m >>= f) s = match m s with
      | (.ok a, s') => f a s'
      | (.err e, s') => (.err e, s')
      | (.ub, s') => (.ub, s') := rfl

@[simp] theorem call_ok_bind (a : α) (f : α → Mut σ β) : (call (.ok a) >>= f) = f a := rfl
@[simp] theorem call_err_bind (e : Exc) (f : α → Mut σ β) : (call (.err e) >>= f) = call (.err e) := rfl
@[simp] theorem call_ub_bind (f : α → Mut σ β) : ((call .ub : Mut σ α) >>= f) = call .ub := rfl
@[simp] theorem assign_bind_run (g : σ → σ) (f : Unit → Mut σ β) (s : σ) :
    (assign g >>= f) s = f () (g s) := rfl
@[simp] theorem read_bind_run (g : σ → Res α) (f : α → Mut σ β) (s : σ) :
    (read g >>= f) s = match g s with
      | .ok a => f a s
      | .err e => (.err e, s)
      | .ub => (.ub, s) := by
  rw [bind_run, read_run]; cases g s <;> rfl

end Mut
end Kep3
