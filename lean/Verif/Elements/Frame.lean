import Verif.Elements.Model
import Mathlib.Tactic.FieldSimp

/-!
# Vectors in an orthonormal frame, and the two-body vector identities
-/

namespace Kep3
namespace V3

theorem dot_add (a b c : V3 ℝ) : dot a (b + c) = dot a b + dot a c := by simp [dot]; ring
theorem dot_sub (a b c : V3 ℝ) : dot a (b - c) = dot a b - dot a c := by simp [dot]; ring
theorem dot_smul (k : ℝ) (a b : V3 ℝ) : dot a (k • b) = k * dot a b := by simp [dot]; ring
theorem add_dot (a b c : V3 ℝ) : dot (a + b) c = dot a c + dot b c := by simp [dot]; ring
theorem sub_dot (a b c : V3 ℝ) : dot (a - b) c = dot a c - dot b c := by simp [dot]; ring
theorem smul_dot (k : ℝ) (a b : V3 ℝ) : dot (k • a) b = k * dot a b := by simp [dot]; ring
theorem dot_cross_self_left (a b : V3 ℝ) : dot a (cross a b) = 0 := by simp [dot]; ring
theorem dot_cross_self_right (a b : V3 ℝ) : dot a (cross b a) = 0 := by simp [dot]; ring
theorem cross_dot_self_left (a b : V3 ℝ) : dot (cross a b) a = 0 := by simp [dot]; ring
theorem cross_dot_self_right (a b : V3 ℝ) : dot (cross a b) b = 0 := by simp [dot]; ring
theorem lagrange (a b : V3 ℝ) : dot (cross a b) (cross a b) = dot a a * dot b b - dot a b ^ 2 := by
  simp [dot]; ring

/-- A vector orthogonal to the three axes of a frame is zero. -/
theorem eq_zero_of_frame {n W d : V3 ℝ} (hn : dot n n = 1) (hW : dot W W = 1) (hnW : dot n W = 0)
    (h1 : dot d n = 0) (h2 : dot d (cross W n) = 0) (h3 : dot d W = 0) : d = 0 := by
  have t : dot W (cross n d) = dot d (cross W n) := by simp [dot]; ring
  have e1 : cross n d = (0 : V3 ℝ) := by
    have k1 : cross W (cross (cross n d) W) = dot W W • cross n d - dot W (cross n d) • W := by
      ext <;> simp [dot] <;> ring
    have k2 : cross (cross n d) W = dot n W • d - dot d W • n := by
      ext <;> simp [dot] <;> ring
    rw [k2, hnW, h3, hW, t, h2] at k1
    ext
    · have := congrArg V3.x k1; simp at this; simpa using this.symm
    · have := congrArg V3.y k1; simp at this; simpa using this.symm
    · have := congrArg V3.z k1; simp at this; simpa using this.symm
  have k : cross n (cross n d) = dot d n • n - dot n n • d := by
    ext <;> simp [dot] <;> ring
  rw [e1, hn, h1] at k
  ext
  · have := congrArg V3.x k; simp at this; simpa using this
  · have := congrArg V3.y k; simp at this; simpa using this
  · have := congrArg V3.z k; simp at this; simpa using this

/-- Vectors are equal when their components in a frame are. -/
theorem eq_of_frame {n W a b : V3 ℝ} (hn : dot n n = 1) (hW : dot W W = 1) (hnW : dot n W = 0)
    (h1 : dot a n = dot b n) (h2 : dot a (cross W n) = dot b (cross W n)) (h3 : dot a W = dot b W) : a = b := by
  have := eq_zero_of_frame (d := a - b) hn hW hnW (by rw [sub_dot, h1, sub_self]) (by rw [sub_dot, h2, sub_self])
    (by rw [sub_dot, h3, sub_self])
  ext
  · have := congrArg V3.x this; simp at this; linarith
  · have := congrArg V3.y this; simp at this; linarith
  · have := congrArg V3.z this; simp at this; linarith

theorem smul_one_div (v : V3 ℝ) (c : ℝ) : (⟨v.x / c, v.y / c, v.z / c⟩ : V3 ℝ) = (1 / c) • v := by
  ext <;> simp <;> ring

end V3

open V3

/-- The eccentricity vector of a state. -/
noncomputable def eccVec (x : RV ℝ) (mu : ℝ) : V3 ℝ :=
  (1 / mu) • cross x.v (cross x.r x.v) - (1 / norm x.r) • x.r
/-- The angular momentum vector. -/
def angMom (x : RV ℝ) : V3 ℝ := cross x.r x.v
/-- Specific orbital energy. -/
noncomputable def energy (x : RV ℝ) (mu : ℝ) : ℝ := dot x.v x.v / 2 - mu / norm x.r

section
variable {x : RV ℝ} {mu : ℝ}

theorem r_ne_of_h (h : angMom x ≠ 0) : x.r ≠ 0 := by
  intro h0; apply h; unfold angMom; rw [h0]; ext <;> simp

theorem eccVec_perp : dot (eccVec x mu) (angMom x) = 0 := by
  unfold eccVec angMom
  simp [dot]; ring

/-- `e . r = p - r`. -/
theorem eccVec_r (hr : x.r ≠ 0) : dot (eccVec x mu) x.r = dot (angMom x) (angMom x) / mu - norm x.r := by
  have hR : norm x.r ≠ 0 := (norm_pos hr).ne'
  have e : dot (eccVec x mu) x.r = dot (angMom x) (angMom x) / mu - 1 / norm x.r * dot x.r x.r := by
    unfold eccVec angMom; simp [dot]; ring
  rw [e, ← norm_mul_self x.r]
  field_simp

/-- `h x e = h^2 v / mu - h x r / r`. -/
theorem cross_h_ecc : cross (angMom x) (eccVec x mu) =
    (dot (angMom x) (angMom x) / mu) • x.v - (1 / norm x.r) • cross (angMom x) x.r := by
  unfold eccVec angMom
  ext <;> simp [dot] <;> ring

/-- `(h x e) . r = h^2 (r . v) / mu`. -/
theorem cross_h_ecc_r : dot (cross (angMom x) (eccVec x mu)) x.r
    = dot (angMom x) (angMom x) / mu * dot x.r x.v := by
  rw [cross_h_ecc]; simp [dot, angMom]; ring

/-- `e^2 = 1 + 2 energy h^2 / mu^2`. -/
theorem eccVec_sq (hr : x.r ≠ 0) (hmu : mu ≠ 0) : dot (eccVec x mu) (eccVec x mu)
    = 1 + 2 * energy x mu * dot (angMom x) (angMom x) / mu ^ 2 := by
  have hR : norm x.r ≠ 0 := (norm_pos hr).ne'
  have k := norm_mul_self x.r
  have hh := lagrange x.r x.v
  have e : dot (eccVec x mu) (eccVec x mu) = dot x.v x.v * dot (angMom x) (angMom x) / mu ^ 2
      - 2 / (mu * norm x.r) * dot (angMom x) (angMom x) + 1 / norm x.r ^ 2 * dot x.r x.r := by
    unfold eccVec angMom; simp [dot]; field_simp; ring
  rw [e, ← k]
  unfold energy
  field_simp
  ring

/-- The velocity from the eccentricity vector: `v = (mu / h) (W x e + W x r / r)`. -/
theorem vel_eq (hh : angMom x ≠ 0) (hmu : mu ≠ 0) :
    x.v = (mu / norm (angMom x)) • (cross ((1 / norm (angMom x)) • angMom x) (eccVec x mu)
      + (1 / norm x.r) • cross ((1 / norm (angMom x)) • angMom x) x.r) := by
  have hH := (norm_pos hh).ne'
  have hR := (norm_pos (r_ne_of_h hh)).ne'
  have hHs := norm_mul_self (angMom x)
  have hv := cross_h_ecc (x := x) (mu := mu)
  rw [← hHs] at hv
  generalize eccVec x mu = ev at *
  generalize angMom x = h at *
  ext
  · have := congrArg V3.x hv
    simp only [smul_x, sub_x, add_x, cross_x, smul_y, smul_z] at this ⊢
    field_simp at this ⊢
    linear_combination (-1 : ℝ) * this
  · have := congrArg V3.y hv
    simp only [smul_x, sub_y, add_y, cross_y, smul_y, smul_z] at this ⊢
    field_simp at this ⊢
    linear_combination (-1 : ℝ) * this
  · have := congrArg V3.z hv
    simp only [smul_x, sub_z, add_z, cross_z, smul_y, smul_z] at this ⊢
    field_simp at this ⊢
    linear_combination (-1 : ℝ) * this
end

end Kep3
