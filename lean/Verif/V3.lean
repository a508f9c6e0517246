import Mathlib.Analysis.SpecialFunctions.Pow.Real
import Mathlib.Analysis.SpecialFunctions.Sqrt
import Mathlib.Tactic.Ring
import Mathlib.Tactic.LinearCombination

/-!
# Vectors with three components

`std::array<double, 3>` and the helper functions of src/linalg.cpp over an arbitrary scalar type.
-/

namespace Kep3

/-- `std::array<double, 3>`. -/
@[ext] structure V3 (F : Type _) where
  x : F
  y : F
  z : F
  deriving DecidableEq

/-- `std::array<std::array<double, 3>, 2>`: position and velocity. -/
@[ext] structure RV (F : Type _) where
  r : V3 F
  v : V3 F
  deriving DecidableEq

namespace V3

instance {F} [Add F] : Add (V3 F) := ⟨fun a b => ⟨a.x + b.x, a.y + b.y, a.z + b.z⟩⟩
instance {F} [Sub F] : Sub (V3 F) := ⟨fun a b => ⟨a.x - b.x, a.y - b.y, a.z - b.z⟩⟩
instance {F} [Neg F] : Neg (V3 F) := ⟨fun a => ⟨-a.x, -a.y, -a.z⟩⟩
instance {F} [Mul F] : SMul F (V3 F) := ⟨fun c a => ⟨c * a.x, c * a.y, c * a.z⟩⟩
instance {F} [Zero F] : Zero (V3 F) := ⟨⟨0, 0, 0⟩⟩

section
variable {F : Type _}
@[simp] theorem add_x [Add F] (a b : V3 F) : (a + b).x = a.x + b.x := rfl
@[simp] theorem add_y [Add F] (a b : V3 F) : (a + b).y = a.y + b.y := rfl
@[simp] theorem add_z [Add F] (a b : V3 F) : (a + b).z = a.z + b.z := rfl
@[simp] theorem sub_x [Sub F] (a b : V3 F) : (a - b).x = a.x - b.x := rfl
@[simp] theorem sub_y [Sub F] (a b : V3 F) : (a - b).y = a.y - b.y := rfl
@[simp] theorem sub_z [Sub F] (a b : V3 F) : (a - b).z = a.z - b.z := rfl
@[simp] theorem neg_x [Neg F] (a : V3 F) : (-a).x = -a.x := rfl
@[simp] theorem neg_y [Neg F] (a : V3 F) : (-a).y = -a.y := rfl
@[simp] theorem neg_z [Neg F] (a : V3 F) : (-a).z = -a.z := rfl
@[simp] theorem smul_x [Mul F] (c : F) (a : V3 F) : (c • a).x = c * a.x := rfl
@[simp] theorem smul_y [Mul F] (c : F) (a : V3 F) : (c • a).y = c * a.y := rfl
@[simp] theorem smul_z [Mul F] (c : F) (a : V3 F) : (c • a).z = c * a.z := rfl
@[simp] theorem zero_x [Zero F] : (0 : V3 F).x = 0 := rfl
@[simp] theorem zero_y [Zero F] : (0 : V3 F).y = 0 := rfl
@[simp] theorem zero_z [Zero F] : (0 : V3 F).z = 0 := rfl
end

/-- Scalar product, written out inline in the code (e.g. src/core_astro/flyby.cpp:40-41,
src/linalg.cpp:32). Over the reals: rounding not modelled. -/
def dot (a b : V3 ℝ) : ℝ := a.x * b.x + a.y * b.y + a.z * b.z

/-- `_cross`, src/linalg.cpp:25-28 (same products, commuted; rounding not modelled). -/
def cross (a b : V3 ℝ) : V3 ℝ :=
  ⟨a.y * b.z - a.z * b.y, a.z * b.x - a.x * b.z, a.x * b.y - a.y * b.x⟩

/-- Euclidean norm as computed in `_normalize`, src/linalg.cpp:32. -/
noncomputable def norm (a : V3 ℝ) : ℝ := Real.sqrt (dot a a)

@[simp] theorem cross_x (a b : V3 ℝ) : (cross a b).x = a.y * b.z - a.z * b.y := rfl
@[simp] theorem cross_y (a b : V3 ℝ) : (cross a b).y = a.z * b.x - a.x * b.z := rfl
@[simp] theorem cross_z (a b : V3 ℝ) : (cross a b).z = a.x * b.y - a.y * b.x := rfl

theorem dot_self_nonneg (a : V3 ℝ) : 0 ≤ dot a a := by
  unfold dot; nlinarith [mul_self_nonneg a.x, mul_self_nonneg a.y, mul_self_nonneg a.z]

theorem norm_nonneg (a : V3 ℝ) : 0 ≤ norm a := Real.sqrt_nonneg _

theorem norm_sq (a : V3 ℝ) : norm a ^ 2 = dot a a := Real.sq_sqrt (dot_self_nonneg a)

theorem norm_mul_self (a : V3 ℝ) : norm a * norm a = dot a a :=
  Real.mul_self_sqrt (dot_self_nonneg a)

theorem dot_self_eq_zero {a : V3 ℝ} : dot a a = 0 ↔ a = 0 := by
  constructor
  · intro h
    unfold dot at h
    have hx : a.x * a.x = 0 := by
      nlinarith [mul_self_nonneg a.x, mul_self_nonneg a.y, mul_self_nonneg a.z]
    have hy : a.y * a.y = 0 := by
      nlinarith [mul_self_nonneg a.x, mul_self_nonneg a.y, mul_self_nonneg a.z]
    have hz : a.z * a.z = 0 := by
      nlinarith [mul_self_nonneg a.x, mul_self_nonneg a.y, mul_self_nonneg a.z]
    ext
    · simpa using hx
    · simpa using hy
    · simpa using hz
  · rintro rfl; simp [dot]

theorem norm_eq_zero {a : V3 ℝ} : norm a = 0 ↔ a = 0 := by
  unfold norm
  rw [Real.sqrt_eq_zero (dot_self_nonneg a), dot_self_eq_zero]

theorem norm_pos {a : V3 ℝ} (h : a ≠ 0) : 0 < norm a :=
  lt_of_le_of_ne (norm_nonneg a) (fun h0 => h (norm_eq_zero.1 h0.symm))

theorem dot_comm (a b : V3 ℝ) : dot a b = dot b a := by unfold dot; ring

/-- Lagrange's identity. -/
theorem cross_dot_cross (a b : V3 ℝ) :
    dot (cross a b) (cross a b) = dot a a * dot b b - dot a b ^ 2 := by
  unfold dot; simp only [cross_x, cross_y, cross_z]; ring

@[simp] theorem cross_dot_left (a b : V3 ℝ) : dot (cross a b) a = 0 := by
  unfold dot; simp only [cross_x, cross_y, cross_z]; ring
@[simp] theorem cross_dot_right (a b : V3 ℝ) : dot (cross a b) b = 0 := by
  unfold dot; simp only [cross_x, cross_y, cross_z]; ring

end V3
end Kep3
