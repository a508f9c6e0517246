import Verif.Lagr.StmVar
import Verif.Lagr.Unique
import Verif.Lagr.Reynolds
import Mathlib.Data.Matrix.Mul
import Mathlib.Algebra.BigOperators.Fin

/-!
# Linearised two-body motion
-/

namespace Kep3
open Real Filter Topology V3 Matrix

/-- `M` is the Jacobian, at `x`, of the motion during the time `t`. -/
def IsJac (x : RV ℝ) (mu t : ℝ) (M : Mat6) : Prop :=
  ∀ i, HasGrad (fun q => pack (kepFlow (unpack q) mu t) i) (M i) (pack x)

theorem rowL_injective {g h : Row} (e : rowL g = rowL h) : g = h := by
  funext j
  have := congrArg (fun L => L (Pi.single j 1)) e
  simpa [rowL_apply, Pi.single_apply] using this

theorem HasGrad.unique {f : (Fin 6 → ℝ) → ℝ} {g h : Row} {p} (h1 : HasGrad f g p) (h2 : HasGrad f h p) : g = h :=
  rowL_injective (HasFDerivAt.unique h1 h2)

theorem IsJac.unique {x : RV ℝ} {mu t : ℝ} {M N : Mat6} (h1 : IsJac x mu t M) (h2 : IsJac x mu t N) : M = N :=
  funext fun i => (h1 i).unique (h2 i)

/-- Chain rule. -/
theorem HasGrad.chain {f : (Fin 6 → ℝ) → ℝ} {g : Row} {P : (Fin 6 → ℝ) → Fin 6 → ℝ} {M : Mat6} {p : Fin 6 → ℝ}
    (hf : HasGrad f g (P p)) (hP : ∀ i, HasGrad (fun q => P q i) (M i) p) :
    HasGrad (fun q => f (P q)) (fun j => ∑ k, g k * M k j) p := by
  have h := HasFDerivAt.comp p (f := P) (g := f) hf (hasFDerivAt_pi.2 hP)
  unfold HasGrad
  refine h.congr_fderiv ?_
  ext v
  simp only [ContinuousLinearMap.comp_apply, rowL_apply, ContinuousLinearMap.pi_apply, Finset.mul_sum, Finset.sum_mul]
  rw [Finset.sum_comm]
  exact Finset.sum_congr rfl fun i _ => Finset.sum_congr rfl fun j _ => by ring

section
variable {x : RV ℝ} {mu : ℝ} (hmu : 0 < mu) (hh : angMom x ≠ 0)
include hmu hh

theorem angMom_flow (t : ℝ) : angMom (kepFlow x mu t) ≠ 0 := by
  unfold kepFlow; rw [angMom_stateU hmu hh]; exact hh

theorem energy_flow (t : ℝ) : energy (kepFlow x mu t) mu = energy x mu := energy_stateU hmu hh _

theorem IsJac.comp {t1 t2 : ℝ} {M N : Mat6} (h1 : IsJac x mu t1 M) (h2 : IsJac (kepFlow x mu t1) mu t2 N) :
    IsJac x mu (t1 + t2) (N * M) := by
  intro i
  have hc : HasGrad (fun q => pack (kepFlow (unpack (pack (kepFlow (unpack q) mu t1))) mu t2) i)
      (fun j => ∑ k, N i k * M k j) (pack x) :=
    HasGrad.chain (P := fun q => pack (kepFlow (unpack q) mu t1)) (f := fun q => pack (kepFlow (unpack q) mu t2) i)
      (by simpa using h2 i) h1
  refine (hc.congr_fun ?_).congr_row fun j => by rw [Matrix.mul_apply]
  filter_upwards [eventually_angMom (p := pack x) (by simpa using hh)] with q hq
  rw [unpack_pack, kepFlow_comp hmu hq]

theorem isJac_zero : IsJac x mu 0 1 := by
  intro i
  refine ((hasGrad_coord i (pack x)).congr_fun ?_).congr_row fun j => by rw [Matrix.one_apply]; simp [eq_comm]
  filter_upwards [eventually_angMom (p := pack x) (by simpa using hh)] with q hq
  rw [kepFlow_zero hmu hq, pack_unpack]

theorem isJac_inv {t : ℝ} {M N : Mat6} (h1 : IsJac x mu t M) (h2 : IsJac (kepFlow x mu t) mu (-t) N) :
    N * M = 1 ∧ M * N = 1 := by
  have h3 := IsJac.comp hmu hh h1 h2
  rw [add_neg_cancel] at h3
  have h4 : N * M = 1 := h3.unique (isJac_zero hmu hh)
  have h5 : IsJac (kepFlow (kepFlow x mu t) mu (-t)) mu t M := by
    rw [kepFlow_comp hmu hh, add_neg_cancel, kepFlow_zero hmu hh]; exact h1
  have h6 := IsJac.comp hmu (angMom_flow hmu hh t) h2 h5
  rw [neg_add_cancel] at h6
  exact ⟨h4, h6.unique (isJac_zero hmu (angMom_flow hmu hh t))⟩

/-- Away from parabolas there are Jacobians, and they leave the identity along the linearised equations of motion. -/
theorem exists_jac0 (hE : energy x mu ≠ 0) :
    ∃ J : ℝ → Mat6, (∀ t, IsJac x mu t (J t)) ∧ ∀ i j, HasDerivAt (fun t => J t i j) (gravJac x mu i j) 0 := by
  have hR := norm_pos (r_ne_of_h hh)
  have hk := (sqrt_pos.2 hmu).ne'
  have ha0 : anomU x mu 0 = 0 := anomU_eq hmu hh (timeU_zero hmu hh)
  have hr0 := radU_zero hmu hh
  have hA : HasDerivAt (anomU x mu) (√mu / norm x.r) 0 := by
    have := hasDerivAt_anomU hmu hh 0; rwa [ha0, hr0] at this
  have hF : HasDerivAt (fun t => FU x mu (anomU x mu t)) 0 0 := by
    have := (hasDerivAt_FU hmu hh (anomU x mu 0)).comp 0 (hasDerivAt_anomU hmu hh 0)
    refine this.congr_deriv ?_
    rw [ha0]; unfold FtU; simp
  have hG : HasDerivAt (fun t => GU x mu (anomU x mu t)) 1 0 := by
    have := (hasDerivAt_GU hmu hh (anomU x mu 0)).comp 0 (hasDerivAt_anomU hmu hh 0)
    refine this.congr_deriv ?_
    rw [ha0, hr0]; unfold GtU; simp; field_simp
  have hFt : HasDerivAt (fun t => FtU x mu (anomU x mu t)) (-(mu / norm x.r ^ 3)) 0 := by
    have := (hasDerivAt_FtU hmu hh (anomU x mu 0)).comp 0 (hasDerivAt_anomU hmu hh 0)
    refine this.congr_deriv ?_
    rw [ha0, hr0]; unfold FU; simp; field_simp
  have hGt : HasDerivAt (fun t => GtU x mu (anomU x mu t)) 0 0 := by
    have := (hasDerivAt_GtU hmu hh (anomU x mu 0)).comp 0 (hasDerivAt_anomU hmu hh 0)
    refine this.congr_deriv ?_
    rw [ha0]; unfold GU; simp
  have hρ := (hasDerivAt_radU hmu hh (anomU x mu 0)).comp 0 (hasDerivAt_anomU hmu hh 0)
  have hρ0 : radU x mu (anomU x mu 0) = norm x.r := by rw [ha0, hr0]
  have hF0 : FU x mu (anomU x mu 0) = 1 := by rw [ha0]; unfold FU; simp
  -- the assembly
  have asm : ∀ {b : ℝ} (d : ℝ → DCoeff), (∀ j, HasDerivAt (fun t => (d t).dF j) 0 0 ∧ HasDerivAt (fun t => (d t).dG j) 0 0 ∧
      HasDerivAt (fun t => (d t).dFt j) (3 * mu / norm x.r ^ 4 * stmDR0 x (norm x.r) j) 0 ∧
      HasDerivAt (fun t => (d t).dGt j) 0 0) → ∀ i j,
      HasDerivAt (fun t => rowsOf x (FU x mu (anomU x mu t)) (GU x mu (anomU x mu t)) (FtU x mu (anomU x mu t))
        (GtU x mu (anomU x mu t)) (d t) i j) (gravJac x mu i j) 0 := by
    intro b d hd i j
    obtain ⟨d1, d2, d3, d4⟩ := hd j
    have r1 : ∀ k, HasDerivAt (fun t => stmRows x (FU x mu (anomU x mu t)) (GU x mu (anomU x mu t)) (d t).dF (d t).dG k j)
        (seedV k j) 0 := by
      intro k
      have := (((hF.mul_const (seedR k j)).add (d1.const_mul (x.r.get k))).add (hG.mul_const (seedV k j))).add
        (d2.const_mul (x.v.get k))
      exact this.congr_deriv (by ring)
    have r2 : ∀ k, HasDerivAt (fun t => stmRows x (FtU x mu (anomU x mu t)) (GtU x mu (anomU x mu t)) (d t).dFt (d t).dGt k j)
        (-(mu / norm x.r ^ 3) * seedR k j + 3 * mu / norm x.r ^ 5 * x.r.get k * dotRow x.r seedR j) 0 := by
      intro k
      have := (((hFt.mul_const (seedR k j)).add (d3.const_mul (x.r.get k))).add (hGt.mul_const (seedV k j))).add
        (d4.const_mul (x.v.get k))
      refine this.congr_deriv ?_
      unfold stmDR0
      field_simp
      ring
    fin_cases i
    · exact r1 0
    · exact r1 1
    · exact r1 2
    · exact r2 0
    · exact r2 1
    · exact r2 2
  rcases lt_or_gt_of_ne hE with hE | hE
  · obtain ⟨b, hb, hα, hj⟩ := jac_E (p := pack x) hmu hh hE
    refine ⟨_, hj, fun i j => ?_⟩
    refine asm (b := b) _ (fun j => ?_) i j
    exact deriv0_E j hmu hb hR (by simp [ha0]) (hA.div_const b) hρ0 hρ hF0 hF (fun t => rfl)
  · obtain ⟨b, hb, hα, hj⟩ := jac_H (p := pack x) hmu hh hE
    refine ⟨_, hj, fun i j => ?_⟩
    refine asm (b := b) _ (fun j => ?_) i j
    exact deriv0_H j hmu hb hR (by simp [ha0]) (hA.div_const b) hρ0 hρ hF0 hF (fun t => rfl)

/-- The Jacobian solves the linearised equations of motion. -/
theorem jac_variational (hE : energy x mu ≠ 0) {J : ℝ → Mat6} (hJ : ∀ t, IsJac x mu t (J t)) (t : ℝ) (i j : Fin 6) :
    HasDerivAt (fun t => J t i j) (∑ k, gravJac (kepFlow x mu t) mu i k * J t k j) t := by
  obtain ⟨K, hK, hd⟩ := exists_jac0 hmu (angMom_flow hmu hh t) (by rw [energy_flow hmu hh]; exact hE)
  have e : (fun s => J s i j) = fun s => ∑ k, K (s - t) i k * J t k j := by
    funext s
    have h1 := IsJac.comp hmu hh (hJ t) (hK (s - t))
    rw [add_sub_cancel] at h1
    rw [(hJ s).unique h1, Matrix.mul_apply]
  rw [e]
  refine HasDerivAt.fun_sum fun k _ => ?_
  have h0 : HasDerivAt (fun s => K s i k) (gravJac (kepFlow x mu t) mu i k) (t - t) := by rw [sub_self]; exact hd i k
  have h1 := HasDerivAt.comp t (h := fun s => s - t) (h₂ := fun s => K s i k) h0 ((hasDerivAt_id t).sub_const t)
  rw [mul_one] at h1
  exact h1.mul_const _

end

/-- The symplectic form. -/
def omega (u w : Fin 6 → ℝ) : ℝ := u 0 * w 3 + u 1 * w 4 + u 2 * w 5 - (u 3 * w 0 + u 4 * w 1 + u 5 * w 2)

theorem omega_nondeg {z : Fin 6 → ℝ} (h : ∀ u, omega u z = 0) : z = 0 := by
  funext i
  have h0 := h ![1, 0, 0, 0, 0, 0]
  have h1 := h ![0, 1, 0, 0, 0, 0]
  have h2 := h ![0, 0, 1, 0, 0, 0]
  have h3 := h ![0, 0, 0, 1, 0, 0]
  have h4 := h ![0, 0, 0, 0, 1, 0]
  have h5 := h ![0, 0, 0, 0, 0, 1]
  simp [omega] at h0 h1 h2 h3 h4 h5
  fin_cases i <;> assumption

/-- `y` solves the linearised equations of motion along the motion from `x`. -/
def VarSol (x : RV ℝ) (mu : ℝ) (y : ℝ → Fin 6 → ℝ) : Prop :=
  ∀ t i, HasDerivAt (fun t => y t i) (∑ k, gravJac (kepFlow x mu t) mu i k * y t k) t

theorem VarSol.omega_const {x : RV ℝ} {mu : ℝ} {y z : ℝ → Fin 6 → ℝ} (hy : VarSol x mu y) (hz : VarSol x mu z) (t : ℝ) :
    omega (y t) (z t) = omega (y 0) (z 0) := by
  refine const_of_hasDerivAt_zero (f := fun t => omega (y t) (z t)) (fun t => ?_) t
  have := ((((hy t 0).mul (hz t 3)).add ((hy t 1).mul (hz t 4))).add ((hy t 2).mul (hz t 5))).sub
    ((((hy t 3).mul (hz t 0)).add ((hy t 4).mul (hz t 1))).add ((hy t 5).mul (hz t 2)))
  refine this.congr_deriv ?_
  simp only [Fin.sum_univ_six, gravJac]
  simp [seedV, seedR, dotRow]
  ring

section
variable {x : RV ℝ} {mu : ℝ} (hmu : 0 < mu) (hh : angMom x ≠ 0)
include hmu hh

theorem varSol_jac (hE : energy x mu ≠ 0) {J : ℝ → Mat6} (hJ : ∀ t, IsJac x mu t (J t)) (w : Fin 6 → ℝ) :
    VarSol x mu fun t => J t *ᵥ w := by
  intro t i
  have : HasDerivAt (fun t => ∑ j, J t i j * w j) _ t :=
    HasDerivAt.fun_sum fun j _ => (jac_variational hmu hh hE hJ t i j).mul_const (w j)
  refine (this.congr_deriv ?_)
  simp only [Matrix.mulVec, dotProduct, Finset.sum_mul, Finset.mul_sum]
  rw [Finset.sum_comm]
  exact Finset.sum_congr rfl fun i _ => Finset.sum_congr rfl fun j _ => by ring

/-- The Jacobian is symplectic. -/
theorem jac_symplectic (hE : energy x mu ≠ 0) {t : ℝ} {M : Mat6} (hM : IsJac x mu t M) (u w : Fin 6 → ℝ) :
    omega (M *ᵥ u) (M *ᵥ w) = omega u w := by
  obtain ⟨J, hJ, -⟩ := exists_jac0 hmu hh hE
  have h := (varSol_jac hmu hh hE hJ u).omega_const (varSol_jac hmu hh hE hJ w) t
  have h0 : J 0 = 1 := (hJ 0).unique (isJac_zero hmu hh)
  simp only [h0, Matrix.one_mulVec, (hJ t).unique hM] at h
  exact h

/-- Every solution of the linearised equations is carried by the Jacobian. -/
theorem VarSol.eq (hE : energy x mu ≠ 0) {y : ℝ → Fin 6 → ℝ} (hy : VarSol x mu y) {t : ℝ} {M : Mat6}
    (hM : IsJac x mu t M) : M *ᵥ (y 0) = y t := by
  obtain ⟨J, hJ, -⟩ := exists_jac0 hmu hh hE
  obtain ⟨K, hK, -⟩ := exists_jac0 hmu (angMom_flow hmu hh t) (by rw [energy_flow hmu hh]; exact hE)
  have h0 : J 0 = 1 := (hJ 0).unique (isJac_zero hmu hh)
  have hinv := (isJac_inv hmu hh hM (hK (-t))).2
  have hz : y t - M *ᵥ (y 0) = 0 := by
    refine omega_nondeg fun u => ?_
    have h1 := (varSol_jac hmu hh hE hJ (K (-t) *ᵥ u)).omega_const hy t
    simp only [h0, Matrix.one_mulVec, (hJ t).unique hM, Matrix.mulVec_mulVec, hinv, Matrix.one_mul] at h1
    have h2 := jac_symplectic hmu hh hE hM (K (-t) *ᵥ u) (y 0)
    simp only [Matrix.mulVec_mulVec, hinv, Matrix.one_mulVec] at h2
    have : omega u (y t - M *ᵥ y 0) = omega u (y t) - omega u (M *ᵥ y 0) := by
      unfold omega; simp only [Pi.sub_apply]; ring
    rw [this, h1, h2, sub_self]
  exact (sub_eq_zero.1 hz).symm

end

end Kep3
