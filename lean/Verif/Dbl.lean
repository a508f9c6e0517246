import Mathlib.Data.Rat.Floor
import Mathlib.Algebra.Order.Field.Rat
import Mathlib.Order.Monotone.Defs
import Mathlib.Tactic.Linarith
import Mathlib.Tactic.NormNum
import Verif.Basic

/-!
# Doubles as they matter for decisions

IEEE 754 doubles with NaN and infinities; finite values are rationals. The sign of zero is dropped
(no modelled decision depends on it).
-/

namespace Kep3

/-- A double: NaN, the infinities, or a finite (rational) value. -/
inductive Dbl
  | nan | ninf | pinf
  | fin (q : ℚ)
  deriving DecidableEq

namespace Dbl

/-- IEEE `<`: false as soon as one side is NaN. -/
def lt : Dbl → Dbl → Bool
  | nan, _ => false
  | _, nan => false
  | _, ninf => false
  | ninf, _ => true
  | pinf, _ => false
  | _, pinf => true
  | fin a, fin b => decide (a < b)

/-- IEEE `==` for values: NaN differs from everything. -/
def beq : Dbl → Dbl → Bool
  | nan, _ => false
  | _, nan => false
  | ninf, ninf => true
  | pinf, pinf => true
  | fin a, fin b => decide (a = b)
  | _, _ => false

/-- IEEE `<=`. -/
def le (a b : Dbl) : Bool := lt a b || beq a b

/-- Not a NaN. -/
def isNum : Dbl → Prop
  | nan => False
  | _ => True

instance : OfNat Dbl n := ⟨fin n⟩

@[simp] theorem ofNat_eq (n : ℕ) : (OfNat.ofNat n : Dbl) = fin (n : ℚ) := rfl

@[simp] theorem lt_fin (a b : ℚ) : lt (fin a) (fin b) = decide (a < b) := rfl
@[simp] theorem lt_nan_left (b : Dbl) : lt nan b = false := rfl
@[simp] theorem lt_nan_right (a : Dbl) : lt a nan = false := by cases a <;> rfl

/-- `double` product of a (non-negative, exactly representable) count and a double, with rounding
function `fl` applied to the exact finite product. `0 * ±inf` is NaN. -/
def natMul (fl : ℚ → ℚ) (n : ℕ) : Dbl → Dbl
  | nan => nan
  | pinf => if n = 0 then nan else pinf
  | ninf => if n = 0 then nan else ninf
  | fin q => fin (fl (n * q))

/-- `static_cast<unsigned>(x)` of a double: the value truncated toward zero if that fits in 32 bits,
undefined behaviour otherwise ([conv.fpint]). -/
def castUnsigned : Dbl → Res ℕ
  | fin q => if -1 < q ∧ q < 2 ^ 32 then .ok ⌊q⌋.toNat else .ub
  | _ => .ub

/-- What is assumed of the rounding function of the double product: it is monotone and leaves the
integers up to 2^32 in place (round-to-nearest on 53 bit significands does). -/
structure Rounding (fl : ℚ → ℚ) : Prop where
  mono : Monotone fl
  fix : ∀ n : ℕ, n ≤ 2 ^ 32 → fl n = n
  fixNegOne : fl (-1) = -1

/-- The assumption is met, e.g. by exact arithmetic. -/
theorem rounding_id : Rounding id := ⟨monotone_id, fun _ _ => rfl, rfl⟩

end Dbl
end Kep3
