/-!
# Outcomes

C++ functions can return, throw or have undefined behaviour. The three are kept apart.
-/

namespace Kep3

/-- Exception classes thrown by the modelled code (messages are dropped).
`outOfRange`, `badNumericCast` and `badOptional` come from the standard library / Boost calls made
by the modelled functions; `notImplemented` is `kep3::not_implemented_error`
(include/kep3/exceptions.hpp:14-22); `evaluation` is `boost::math::evaluation_error`;
`value`, `typeError`, `key`, `index`, `name` are the Python exceptions of the pykep modules. -/
inductive Exc
  | invalidArgument | logicError | domainError | outOfRange | badNumericCast | notImplemented
  | evaluation | runtimeError | value | typeError | key | index | name
  deriving DecidableEq, Repr

/-- Outcome of a call: a value, an exception, or undefined behaviour. -/
inductive Res (α : Type _)
  | ok (a : α)
  | err (e : Exc)
  | ub
  deriving DecidableEq, Repr

namespace Res

/-- Sequencing: exceptions and undefined behaviour propagate. -/
def bind {α β} (x : Res α) (f : α → Res β) : Res β :=
  match x with
  | ok a => f a
  | err e => err e
  | ub => ub

instance : Monad Res where
  pure := ok
  bind := bind

@[simp] theorem pure_eq {α} (a : α) : (pure a : Res α) = ok a := rfl
@[simp] theorem ok_bind {α β} (a : α) (f : α → Res β) : (ok a >>= f) = f a := rfl
@[simp] theorem err_bind {α β} (e : Exc) (f : α → Res β) : ((err e : Res α) >>= f) = err e := rfl
@[simp] theorem ub_bind {α β} (f : α → Res β) : ((ub : Res α) >>= f) = ub := rfl

@[simp] theorem bind_ok {α} (x : Res α) : (x >>= fun a => ok a) = x := by cases x <;> rfl

@[simp] theorem map_ok {α β} (f : α → β) (a : α) : f <$> (ok a : Res α) = ok (f a) := rfl
@[simp] theorem map_err {α β} (f : α → β) (e : Exc) : f <$> (err e : Res α) = err e := rfl
@[simp] theorem map_ub {α β} (f : α → β) : f <$> (ub : Res α) = ub := rfl

/-- The call returned normally. -/
def isOk {α} : Res α → Bool
  | ok _ => true
  | _ => false

instance : LawfulMonad Res := LawfulMonad.mk'
  (id_map := by intro α x; cases x <;> rfl)
  (pure_bind := by intros; rfl)
  (bind_assoc := by intro α β γ x f g; cases x <;> rfl)
  (bind_pure_comp := by intro α β f x; cases x <;> rfl)

end Res
end Kep3
