import Verif.Lagr.StmLin
import Mathlib.LinearAlgebra.Matrix.ToLinearEquiv

/-!
# Reynolds' columns solve the linearised equations
-/

namespace Kep3
open Real Filter Topology V3 Matrix

theorem col_rot (x y : RV ℝ) (t mu : ℝ) (i : Fin 6) :
    computeY x y t mu i 0 = pack ⟨cross y.r ⟨1, 0, 0⟩, cross y.v ⟨1, 0, 0⟩⟩ i ∧
    computeY x y t mu i 1 = pack ⟨cross y.r ⟨0, 1, 0⟩, cross y.v ⟨0, 1, 0⟩⟩ i ∧
    computeY x y t mu i 2 = pack ⟨cross y.r ⟨0, 0, 1⟩, cross y.v ⟨0, 0, 1⟩⟩ i := by
  unfold computeY
  refine ⟨?_, ?_, ?_⟩ <;> fin_cases i <;> simp [blocks, pack, skew]

theorem col_scale (x y : RV ℝ) (t mu : ℝ) (i : Fin 6) :
    computeY x y t mu i 5 = pack ⟨-y.r + (3 / 2 * t) • y.v,
    (1 / 2 : ℝ) • y.v - (3 / 2 * (mu / norm y.r ^ 3) * t) • y.r⟩ i := by
  have hn : √(y.r.x * y.r.x + y.r.y * y.r.y + y.r.z * y.r.z) = norm y.r := rfl
  have h3 : norm y.r * norm y.r * norm y.r = norm y.r ^ 3 := by ring
  unfold computeY
  simp only [hn, h3, mul_div_assoc]
  generalize mu / norm y.r ^ 3 = w
  fin_cases i <;> simp [blocks, pack] <;> ring

theorem col_lrl (x y : RV ℝ) (t mu : ℝ) (k : Fin 2) (i : Fin 6) :
    computeY x y t mu i ⟨3 + k.val, by omega⟩ =
      pack ⟨-(cross y.r (cross y.v ⟨reyB x mu 0 k, reyB x mu 1 k, reyB x mu 2 k⟩)
          + cross (angMom y) ⟨reyB x mu 0 k, reyB x mu 1 k, reyB x mu 2 k⟩),
        (mu / norm y.r ^ 3) • cross y.r (cross y.r ⟨reyB x mu 0 k, reyB x mu 1 k, reyB x mu 2 k⟩)
          - cross y.v (cross y.v ⟨reyB x mu 0 k, reyB x mu 1 k, reyB x mu 2 k⟩)⟩ i := by
  have hn : √(y.r.x * y.r.x + y.r.y * y.r.y + y.r.z * y.r.z) = norm y.r := rfl
  have h3 : norm y.r * norm y.r * norm y.r = norm y.r ^ 3 := by ring
  unfold computeY angMom
  simp only [hn, h3]
  generalize mu / norm y.r ^ 3 = w
  generalize reyB x mu = B
  fin_cases k <;> fin_cases i <;>
    simp [blocks, pack, skew, Matrix.vecMul, dotProduct, Fin.sum_univ_three] <;> ring

section
variable {x : RV ℝ} {mu : ℝ}

/-- A solution of the linearised equations, from position and velocity parts. -/
theorem varSol_mk {P Q Q' : ℝ → V3 ℝ}
    (px : ∀ t, HasDerivAt (fun t => (P t).x) (Q t).x t) (py : ∀ t, HasDerivAt (fun t => (P t).y) (Q t).y t)
    (pz : ∀ t, HasDerivAt (fun t => (P t).z) (Q t).z t)
    (qx : ∀ t, HasDerivAt (fun t => (Q t).x) (Q' t).x t) (qy : ∀ t, HasDerivAt (fun t => (Q t).y) (Q' t).y t)
    (qz : ∀ t, HasDerivAt (fun t => (Q t).z) (Q' t).z t)
    (h : ∀ t, Q' t = -(mu / norm (kepFlow x mu t).r ^ 3) • P t
      + (3 * mu / norm (kepFlow x mu t).r ^ 5 * dot (kepFlow x mu t).r (P t)) • (kepFlow x mu t).r) :
    VarSol x mu fun t => pack ⟨P t, Q t⟩ := by
  intro t i
  fin_cases i
  · refine (px t).congr_deriv ?_
    simp [Fin.sum_univ_six, gravJac, seedV, pack]
  · refine (py t).congr_deriv ?_
    simp [Fin.sum_univ_six, gravJac, seedV, pack]
  · refine (pz t).congr_deriv ?_
    simp [Fin.sum_univ_six, gravJac, seedV, pack]
  · refine (qx t).congr_deriv ?_
    rw [h t]
    simp [Fin.sum_univ_six, gravJac, seedV, seedR, dotRow, pack, dot]
    ring
  · refine (qy t).congr_deriv ?_
    rw [h t]
    simp [Fin.sum_univ_six, gravJac, seedV, seedR, dotRow, pack, dot]
    ring
  · refine (qz t).congr_deriv ?_
    rw [h t]
    simp [Fin.sum_univ_six, gravJac, seedV, seedR, dotRow, pack, dot]
    ring

variable (hmu : 0 < mu) (hh : angMom x ≠ 0)
include hmu hh

theorem flow_r_pos (t : ℝ) : 0 < norm (kepFlow x mu t).r := norm_pos (r_ne_of_h (angMom_flow hmu hh t))

/-- The strength `mu / |r|^3` along the motion. -/
theorem hasDerivAt_grav (t : ℝ) : HasDerivAt (fun t => mu / norm (kepFlow x mu t).r ^ 3)
    (-(3 * mu / norm (kepFlow x mu t).r ^ 5 * dot (kepFlow x mu t).r (kepFlow x mu t).v)) t := by
  have hn := twoBody_norm hmu (kepFlow_twoBody hmu hh) (by rw [kepFlow_zero hmu hh]; exact hh) t
  have hp := (flow_r_pos hmu hh t).ne'
  have := (hasDerivAt_const t mu).div (hn.pow 3) (pow_ne_zero 3 hp)
  refine this.congr_deriv ?_
  simp only [Pi.pow_apply]
  generalize norm (kepFlow x mu t).r = R at *
  push_cast
  field_simp
  ring

theorem grav_rel (t : ℝ) : 3 * mu / norm (kepFlow x mu t).r ^ 5 * dot (kepFlow x mu t).r (kepFlow x mu t).r
    = 3 * (mu / norm (kepFlow x mu t).r ^ 3) := by
  have hp := (flow_r_pos hmu hh t).ne'
  rw [← norm_sq]
  field_simp

/-- Infinitesimal rotations. -/
theorem varSol_rot (c : V3 ℝ) : VarSol x mu fun t => pack ⟨cross (kepFlow x mu t).r c, cross (kepFlow x mu t).v c⟩ := by
  have T := kepFlow_twoBody hmu hh
  refine varSol_mk (Q' := fun t => cross (-(mu / norm (kepFlow x mu t).r ^ 3) • (kepFlow x mu t).r) c)
    (fun t => ?_) (fun t => ?_) (fun t => ?_) (fun t => ?_) (fun t => ?_) (fun t => ?_) (fun t => ?_)
  · exact ((T.ry t).mul_const c.z).sub ((T.rz t).mul_const c.y)
  · exact ((T.rz t).mul_const c.x).sub ((T.rx t).mul_const c.z)
  · exact ((T.rx t).mul_const c.y).sub ((T.ry t).mul_const c.x)
  · exact ((T.vy t).mul_const c.z).sub ((T.vz t).mul_const c.y)
  · exact ((T.vz t).mul_const c.x).sub ((T.vx t).mul_const c.z)
  · exact ((T.vx t).mul_const c.y).sub ((T.vy t).mul_const c.x)
  · generalize mu / norm (kepFlow x mu t).r ^ 3 = w
    generalize 3 * mu / norm (kepFlow x mu t).r ^ 5 = s
    ext <;> simp [dot] <;> ring

/-- Changes of scale. -/
theorem varSol_scale : VarSol x mu fun t => pack ⟨-(kepFlow x mu t).r + (3 / 2 * t) • (kepFlow x mu t).v,
    (1 / 2 : ℝ) • (kepFlow x mu t).v - (3 / 2 * (mu / norm (kepFlow x mu t).r ^ 3) * t) • (kepFlow x mu t).r⟩ := by
  have T := kepFlow_twoBody hmu hh
  have ht : ∀ t, HasDerivAt (fun t : ℝ => 3 / 2 * t) (3 / 2) t := fun t => by
    simpa using (hasDerivAt_id t).const_mul (3 / 2 : ℝ)
  have hw : ∀ t, HasDerivAt (fun t : ℝ => 3 / 2 * (mu / norm (kepFlow x mu t).r ^ 3) * t) _ t := fun t =>
    ((hasDerivAt_grav hmu hh t).const_mul (3 / 2 : ℝ)).mul (hasDerivAt_id t)
  refine varSol_mk (Q' := fun t => (-2 * (mu / norm (kepFlow x mu t).r ^ 3)) • (kepFlow x mu t).r
      + (3 / 2 * t * (3 * mu / norm (kepFlow x mu t).r ^ 5 * dot (kepFlow x mu t).r (kepFlow x mu t).v)) • (kepFlow x mu t).r
      - (3 / 2 * t * (mu / norm (kepFlow x mu t).r ^ 3)) • (kepFlow x mu t).v)
    (fun t => ?_) (fun t => ?_) (fun t => ?_) (fun t => ?_) (fun t => ?_) (fun t => ?_) (fun t => ?_)
  · refine ((T.rx t).neg.add ((ht t).mul (T.vx t))).congr_deriv ?_; simp; ring
  · refine ((T.ry t).neg.add ((ht t).mul (T.vy t))).congr_deriv ?_; simp; ring
  · refine ((T.rz t).neg.add ((ht t).mul (T.vz t))).congr_deriv ?_; simp; ring
  · refine (((T.vx t).const_mul (1 / 2 : ℝ)).sub ((hw t).mul (T.rx t))).congr_deriv ?_; simp; ring
  · refine (((T.vy t).const_mul (1 / 2 : ℝ)).sub ((hw t).mul (T.ry t))).congr_deriv ?_; simp; ring
  · refine (((T.vz t).const_mul (1 / 2 : ℝ)).sub ((hw t).mul (T.rz t))).congr_deriv ?_; simp; ring
  · have hr := grav_rel hmu hh t
    generalize mu / norm (kepFlow x mu t).r ^ 3 = w at *
    generalize 3 * mu / norm (kepFlow x mu t).r ^ 5 = s at *
    generalize kepFlow x mu t = y at *
    unfold dot at *
    ext
    · simp; linear_combination y.r.x * hr
    · simp; linear_combination y.r.y * hr
    · simp; linear_combination y.r.z * hr

/-- The columns that come from the eccentricity vector. -/
theorem varSol_lrl (c : V3 ℝ) : VarSol x mu fun t => pack
    ⟨-(cross (kepFlow x mu t).r (cross (kepFlow x mu t).v c) + cross (angMom (kepFlow x mu t)) c),
     (mu / norm (kepFlow x mu t).r ^ 3) • cross (kepFlow x mu t).r (cross (kepFlow x mu t).r c)
      - cross (kepFlow x mu t).v (cross (kepFlow x mu t).v c)⟩ := by
  have T := kepFlow_twoBody hmu hh
  have hA : ∀ t, angMom (kepFlow x mu t) = angMom x := fun t => angMom_stateU hmu hh _
  have w := hasDerivAt_grav hmu hh
  simp only [hA]
  refine varSol_mk (Q' := fun t =>
      -(3 * mu / norm (kepFlow x mu t).r ^ 5 * dot (kepFlow x mu t).r (kepFlow x mu t).v) •
        cross (kepFlow x mu t).r (cross (kepFlow x mu t).r c)
      + (2 * (mu / norm (kepFlow x mu t).r ^ 3)) • (cross (kepFlow x mu t).v (cross (kepFlow x mu t).r c)
        + cross (kepFlow x mu t).r (cross (kepFlow x mu t).v c)))
    (fun t => ?_) (fun t => ?_) (fun t => ?_) (fun t => ?_) (fun t => ?_) (fun t => ?_) (fun t => ?_)
  · have cx := ((T.vy t).mul_const c.z).sub ((T.vz t).mul_const c.y)
    have cy := ((T.vz t).mul_const c.x).sub ((T.vx t).mul_const c.z)
    have cz := ((T.vx t).mul_const c.y).sub ((T.vy t).mul_const c.x)
    refine ((((T.ry t).mul cz).sub ((T.rz t).mul cy)).add_const _).neg.congr_deriv ?_
    simp; ring
  · have cx := ((T.vy t).mul_const c.z).sub ((T.vz t).mul_const c.y)
    have cy := ((T.vz t).mul_const c.x).sub ((T.vx t).mul_const c.z)
    have cz := ((T.vx t).mul_const c.y).sub ((T.vy t).mul_const c.x)
    refine ((((T.rz t).mul cx).sub ((T.rx t).mul cz)).add_const _).neg.congr_deriv ?_
    simp; ring
  · have cx := ((T.vy t).mul_const c.z).sub ((T.vz t).mul_const c.y)
    have cy := ((T.vz t).mul_const c.x).sub ((T.vx t).mul_const c.z)
    have cz := ((T.vx t).mul_const c.y).sub ((T.vy t).mul_const c.x)
    refine ((((T.rx t).mul cy).sub ((T.ry t).mul cx)).add_const _).neg.congr_deriv ?_
    simp; ring
  · have cx := ((T.vy t).mul_const c.z).sub ((T.vz t).mul_const c.y)
    have cy := ((T.vz t).mul_const c.x).sub ((T.vx t).mul_const c.z)
    have cz := ((T.vx t).mul_const c.y).sub ((T.vy t).mul_const c.x)
    have dx := ((T.ry t).mul_const c.z).sub ((T.rz t).mul_const c.y)
    have dy := ((T.rz t).mul_const c.x).sub ((T.rx t).mul_const c.z)
    have dz := ((T.rx t).mul_const c.y).sub ((T.ry t).mul_const c.x)
    refine (((w t).mul (((T.ry t).mul dz).sub ((T.rz t).mul dy))).sub
      (((T.vy t).mul cz).sub ((T.vz t).mul cy))).congr_deriv ?_
    simp; ring
  · have cx := ((T.vy t).mul_const c.z).sub ((T.vz t).mul_const c.y)
    have cy := ((T.vz t).mul_const c.x).sub ((T.vx t).mul_const c.z)
    have cz := ((T.vx t).mul_const c.y).sub ((T.vy t).mul_const c.x)
    have dx := ((T.ry t).mul_const c.z).sub ((T.rz t).mul_const c.y)
    have dy := ((T.rz t).mul_const c.x).sub ((T.rx t).mul_const c.z)
    have dz := ((T.rx t).mul_const c.y).sub ((T.ry t).mul_const c.x)
    refine (((w t).mul (((T.rz t).mul dx).sub ((T.rx t).mul dz))).sub
      (((T.vz t).mul cx).sub ((T.vx t).mul cz))).congr_deriv ?_
    simp; ring
  · have cx := ((T.vy t).mul_const c.z).sub ((T.vz t).mul_const c.y)
    have cy := ((T.vz t).mul_const c.x).sub ((T.vx t).mul_const c.z)
    have cz := ((T.vx t).mul_const c.y).sub ((T.vy t).mul_const c.x)
    have dx := ((T.ry t).mul_const c.z).sub ((T.rz t).mul_const c.y)
    have dy := ((T.rz t).mul_const c.x).sub ((T.rx t).mul_const c.z)
    have dz := ((T.rx t).mul_const c.y).sub ((T.ry t).mul_const c.x)
    refine (((w t).mul (((T.rx t).mul dy).sub ((T.ry t).mul dx))).sub
      (((T.vx t).mul cy).sub ((T.vy t).mul cx))).congr_deriv ?_
    simp; ring
  · have hr := grav_rel hmu hh t
    rw [← hA t]
    generalize mu / norm (kepFlow x mu t).r ^ 3 = w at *
    generalize 3 * mu / norm (kepFlow x mu t).r ^ 5 = s at *
    generalize kepFlow x mu t = y at *
    unfold angMom
    unfold dot at *
    ext
    · simp; linear_combination (-(y.v.y * (y.r.x * c.y - y.r.y * c.x) - y.v.z * (y.r.z * c.x - y.r.x * c.z))) * hr
    · simp; linear_combination (-(y.v.z * (y.r.y * c.z - y.r.z * c.y) - y.v.x * (y.r.x * c.y - y.r.y * c.x))) * hr
    · simp; linear_combination (-(y.v.x * (y.r.z * c.x - y.r.x * c.z) - y.v.y * (y.r.y * c.z - y.r.z * c.y))) * hr

/-- Each column of `_compute_Y`, taken along the motion, solves the linearised equations. -/
theorem varSol_computeY (j : Fin 6) : VarSol x mu fun t i => computeY x (kepFlow x mu t) t mu i j := by
  fin_cases j
  · convert varSol_rot hmu hh ⟨1, 0, 0⟩ using 3 with t i
    exact (col_rot x _ _ mu i).1
  · convert varSol_rot hmu hh ⟨0, 1, 0⟩ using 3 with t i
    exact (col_rot x _ _ mu i).2.1
  · convert varSol_rot hmu hh ⟨0, 0, 1⟩ using 3 with t i
    exact (col_rot x _ _ mu i).2.2
  · convert varSol_lrl hmu hh ⟨reyB x mu 0 0, reyB x mu 1 0, reyB x mu 2 0⟩ using 3 with t i
    exact (col_lrl x _ _ mu 0 i)
  · convert varSol_lrl hmu hh ⟨reyB x mu 0 1, reyB x mu 1 1, reyB x mu 2 1⟩ using 3 with t i
    exact (col_lrl x _ _ mu 1 i)
  · convert varSol_scale hmu hh using 3 with t i
    exact col_scale x _ _ mu i

/-- Along the motion, `_compute_Y` is the transition matrix times its initial value. -/
theorem computeY_flow (hE : energy x mu ≠ 0) {t : ℝ} {M : Mat6} (hM : IsJac x mu t M) :
    M * computeY x x 0 mu = computeY x (kepFlow x mu t) t mu := by
  ext i j
  have h := congrFun (VarSol.eq hmu hh hE (varSol_computeY hmu hh j) hM) i
  simp only [kepFlow_zero hmu hh] at h
  exact h

omit hmu hh in
/-- Linear independence of Reynolds' columns, in vector form. -/
theorem rey_indep {r v w : V3 ℝ} {m b1 b2 s : ℝ} (hh : cross r v ≠ 0) (hE : dot v v / 2 - m * dot r r ≠ 0)
    (top : cross r w - (cross r (cross v (b1 • r + b2 • v)) + cross (cross r v) (b1 • r + b2 • v)) - s • r = 0)
    (bot : cross v w + (m • cross r (cross r (b1 • r + b2 • v)) - cross v (cross v (b1 • r + b2 • v)))
      + (s / 2) • v = 0) : w = 0 ∧ b1 = 0 ∧ b2 = 0 ∧ s = 0 := by
  have hpos : 0 < dot (cross r v) (cross r v) := by
    rw [← norm_sq]; exact pow_pos (norm_pos hh) 2
  obtain ⟨r1, r2, r3⟩ := r
  obtain ⟨v1, v2, v3⟩ := v
  obtain ⟨w1, w2, w3⟩ := w
  have t1 := congrArg V3.x top
  have t2 := congrArg V3.y top
  have t3 := congrArg V3.z top
  have u1 := congrArg V3.x bot
  have u2 := congrArg V3.y bot
  have u3 := congrArg V3.z bot
  simp at t1 t2 t3 u1 u2 u3
  simp [dot] at hpos hE
  set H := (r2 * v3 - r3 * v2) * (r2 * v3 - r3 * v2) + (r3 * v1 - r1 * v3) * (r3 * v1 - r1 * v3)
    + (r1 * v2 - r2 * v1) * (r1 * v2 - r2 * v1) with hH
  have e1 : b2 * H = s * (r1 * r1 + r2 * r2 + r3 * r3) := by
    rw [hH]; linear_combination r1 * t1 + r2 * t2 + r3 * t3
  have e2 : -m * b2 * H + s * (v1 * v1 + v2 * v2 + v3 * v3) / 2 = 0 := by
    rw [hH]; linear_combination v1 * u1 + v2 * u2 + v3 * u3
  have hs : s = 0 := by
    have : s * ((v1 * v1 + v2 * v2 + v3 * v3) / 2 - m * (r1 * r1 + r2 * r2 + r3 * r3)) = 0 := by
      linear_combination e2 + m * e1
    rcases mul_eq_zero.1 this with h | h
    · exact h
    · exact absurd h hE
  have hb2 : b2 = 0 := by
    rw [hs, zero_mul] at e1
    exact (mul_eq_zero.1 e1).resolve_right hpos.ne'
  subst hs hb2
  have hb1 : b1 = 0 := by
    have : b1 * H = 0 := by
      rw [hH]; linear_combination -(v1 * t1 + v2 * t2 + v3 * t3) - (r1 * u1 + r2 * u2 + r3 * u3)
    exact (mul_eq_zero.1 this).resolve_right hpos.ne'
  subst hb1
  simp at t1 t2 t3 u1 u2 u3
  have hw : (r2 * v3 - r3 * v2) * w1 + (r3 * v1 - r1 * v3) * w2 + (r1 * v2 - r2 * v1) * w3 = 0 := by
    linear_combination -(v1 * t1 + v2 * t2 + v3 * t3)
  have c1 : w2 * (r1 * v2 - r2 * v1) - w3 * (r3 * v1 - r1 * v3) = 0 := by
    linear_combination v2 * t3 - v3 * t2 - (r2 * u3 - r3 * u2)
  have c2 : w3 * (r2 * v3 - r3 * v2) - w1 * (r1 * v2 - r2 * v1) = 0 := by
    linear_combination v3 * t1 - v1 * t3 - (r3 * u1 - r1 * u3)
  have c3 : w1 * (r3 * v1 - r1 * v3) - w2 * (r2 * v3 - r3 * v2) = 0 := by
    linear_combination v1 * t2 - v2 * t1 - (r1 * u2 - r2 * u1)
  refine ⟨?_, rfl, rfl, rfl⟩
  have k1 : w1 * H = 0 := by
    rw [hH]; linear_combination (r2 * v3 - r3 * v2) * hw + (r3 * v1 - r1 * v3) * c3 - (r1 * v2 - r2 * v1) * c2
  have k2 : w2 * H = 0 := by
    rw [hH]; linear_combination (r3 * v1 - r1 * v3) * hw + (r1 * v2 - r2 * v1) * c1 - (r2 * v3 - r3 * v2) * c3
  have k3 : w3 * H = 0 := by
    rw [hH]; linear_combination (r1 * v2 - r2 * v1) * hw + (r2 * v3 - r3 * v2) * c2 - (r3 * v1 - r1 * v3) * c1
  ext
  · exact (mul_eq_zero.1 k1).resolve_right hpos.ne'
  · exact (mul_eq_zero.1 k2).resolve_right hpos.ne'
  · exact (mul_eq_zero.1 k3).resolve_right hpos.ne'

/-- `_compute_Y` at time zero is invertible. -/
theorem isUnit_computeY0 (hE : energy x mu ≠ 0) : IsUnit (computeY x x 0 mu).det := by
  rw [isUnit_iff_ne_zero]
  intro hd
  obtain ⟨a, ha, h0⟩ := Matrix.exists_mulVec_eq_zero_iff.2 hd
  refine ha ?_
  have hR := norm_pos (r_ne_of_h hh)
  have hk := sqrt_pos.2 (mul_pos hmu hR)
  have hent : ∀ i, computeY x x 0 mu i 0 * a 0 + computeY x x 0 mu i 1 * a 1 + computeY x x 0 mu i 2 * a 2
      + computeY x x 0 mu i 3 * a 3 + computeY x x 0 mu i 4 * a 4 + computeY x x 0 mu i 5 * a 5 = 0 := by
    intro i
    have := congrFun h0 i
    simpa [Matrix.mulVec, dotProduct, Fin.sum_univ_six] using this
  have c3 := col_lrl x x 0 mu 0
  have c4 := col_lrl x x 0 mu 1
  simp only [Fin.isValue, Fin.val_zero, add_zero, Fin.val_one] at c3 c4
  change ∀ i, computeY x x 0 mu i 3 = _ at c3
  change ∀ i, computeY x x 0 mu i 4 = _ at c4
  have hB0 : ∀ k, reyB x mu k 0 = ![x.r.x, x.r.y, x.r.z] k / √(mu * norm x.r) := by
    intro k; fin_cases k <;> rfl
  have hB1 : ∀ k, reyB x mu k 1 = ![x.v.x, x.v.y, x.v.z] k * norm x.r / mu := by
    intro k; fin_cases k <;> rfl
  simp only [(col_rot x x 0 mu _).1, (col_rot x x 0 mu _).2.1, (col_rot x x 0 mu _).2.2, col_scale, c3, c4, hB0, hB1]
    at hent
  have hE' : dot x.v x.v / 2 - mu / norm x.r ^ 3 * dot x.r x.r ≠ 0 := by
    rw [← norm_sq x.r]
    intro e
    refine hE ?_
    unfold energy
    rw [← e]; field_simp
  obtain ⟨h1, h2, h3, h4⟩ := rey_indep (w := ⟨a 0, a 1, a 2⟩) (b1 := a 3 / √(mu * norm x.r)) (b2 := a 4 * norm x.r / mu)
    (s := a 5) hh hE' (by
      have e0 := hent 0
      have e1 := hent 1
      have e2 := hent 2
      simp [pack, angMom] at e0 e1 e2
      ext
      · simp; rw [← e0]; ring
      · simp; rw [← e1]; ring
      · simp; rw [← e2]; ring) (by
      have e0 := hent 3
      have e1 := hent 4
      have e2 := hent 5
      simp [pack, angMom] at e0 e1 e2
      ext
      · simp; rw [← e0]; ring
      · simp; rw [← e1]; ring
      · simp; rw [← e2]; ring)
  have a3 : a 3 = 0 := by rcases div_eq_zero_iff.1 h2 with h | h; exacts [h, absurd h hk.ne']
  have a4 : a 4 = 0 := by
    rcases div_eq_zero_iff.1 h3 with h | h
    · exact (mul_eq_zero.1 h).resolve_right hR.ne'
    · exact absurd h hmu.ne'
  have a0 := congrArg V3.x h1
  have a1 := congrArg V3.y h1
  have a2 := congrArg V3.z h1
  simp at a0 a1 a2
  funext i
  fin_cases i <;> assumption

/-- Reynolds' matrix is the Jacobian of the flow. -/
theorem stmReynolds_eq {inv : Mat6 → Option Mat6} (hinv : InvSpec inv) (hE : energy x mu ≠ 0) {t : ℝ} {M : Mat6}
    (hM : IsJac x mu t M) : stmReynolds inv x (kepFlow x mu t) t mu = some M := by
  obtain ⟨B, hB, h1⟩ := hinv _ (isUnit_computeY0 hmu hh hE)
  unfold stmReynolds
  simp only [hB]
  change some _ = some _
  rw [← computeY_flow hmu hh hE hM, Matrix.mul_assoc, h1, Matrix.mul_one]

end

end Kep3
