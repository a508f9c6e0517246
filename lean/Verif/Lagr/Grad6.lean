import Verif.Lagr.Stm
import Mathlib.Analysis.Calculus.FDeriv.Mul
import Mathlib.Analysis.Calculus.FDeriv.Prod
import Mathlib.Analysis.Calculus.FDeriv.Pi
import Mathlib.Analysis.Calculus.Deriv.Comp
import Mathlib.Analysis.Calculus.Deriv.Inv
import Mathlib.Analysis.SpecialFunctions.Trigonometric.Deriv
import Mathlib.Analysis.SpecialFunctions.Trigonometric.DerivHyp
import Mathlib.Analysis.SpecialFunctions.Sqrt
import Mathlib.Tactic.FieldSimp
import Mathlib.Tactic.LinearCombination

/-!
# Gradients with respect to six coordinates, and implicit functions
-/

namespace Kep3
open Real Filter Topology Asymptotics

/-- The linear functional with the given coefficients. -/
noncomputable def rowL (g : Row) : (Fin 6 → ℝ) →L[ℝ] ℝ := ∑ j, g j • ContinuousLinearMap.proj (R := ℝ) (φ := fun _ => ℝ) j

theorem rowL_apply (g : Row) (v : Fin 6 → ℝ) : rowL g v = ∑ j, g j * v j := by
  unfold rowL; simp

/-- `f` is differentiable at `p` with gradient `g`. -/
def HasGrad (f : (Fin 6 → ℝ) → ℝ) (g : Row) (p : Fin 6 → ℝ) : Prop := HasFDerivAt f (rowL g) p

theorem rowL_lin (a b : ℝ) (g h : Row) : rowL (fun j => a * g j + b * h j) = a • rowL g + b • rowL h := by
  ext v; simp only [ContinuousLinearMap.add_apply, ContinuousLinearMap.smul_apply, rowL_apply, smul_eq_mul,
    Finset.mul_sum, ← Finset.sum_add_distrib]
  exact Finset.sum_congr rfl fun j _ => by ring

theorem HasGrad.congr_row {f : (Fin 6 → ℝ) → ℝ} {g h : Row} {p} (hf : HasGrad f g p) (e : ∀ j, g j = h j) :
    HasGrad f h p := by rwa [show h = g from funext fun j => (e j).symm]

theorem HasGrad.congr_fun {f f' : (Fin 6 → ℝ) → ℝ} {g : Row} {p} (hf : HasGrad f g p) (e : f' =ᶠ[𝓝 p] f) :
    HasGrad f' g p := HasFDerivAt.congr_of_eventuallyEq hf e

theorem HasGrad.continuousAt {f : (Fin 6 → ℝ) → ℝ} {g : Row} {p} (hf : HasGrad f g p) : ContinuousAt f p :=
  HasFDerivAt.continuousAt hf

theorem hasGrad_const (c : ℝ) (p) : HasGrad (fun _ => c) (fun _ => 0) p := by
  have : rowL (fun _ => 0) = 0 := by ext v; rw [rowL_apply]; simp
  unfold HasGrad; rw [this]; exact hasFDerivAt_const c p

theorem hasGrad_coord (i : Fin 6) (p) : HasGrad (fun q => q i) (fun j => if j = i then 1 else 0) p := by
  have : rowL (fun j => if j = i then 1 else 0) = ContinuousLinearMap.proj (R := ℝ) (φ := fun _ => ℝ) i := by
    ext v; rw [rowL_apply]; simp
  unfold HasGrad; rw [this]; exact (ContinuousLinearMap.proj (R := ℝ) (φ := fun _ => ℝ) i).hasFDerivAt

section
variable {f g : (Fin 6 → ℝ) → ℝ} {df dg : Row} {p : Fin 6 → ℝ}

theorem HasGrad.add (hf : HasGrad f df p) (hg : HasGrad g dg p) :
    HasGrad (fun q => f q + g q) (fun j => df j + dg j) p := by
  have h := HasFDerivAt.add hf hg
  have e := rowL_lin 1 1 df dg
  simp only [one_mul, one_smul] at e
  unfold HasGrad; rw [e]; exact h

theorem HasGrad.mul (hf : HasGrad f df p) (hg : HasGrad g dg p) :
    HasGrad (fun q => f q * g q) (fun j => f p * dg j + g p * df j) p := by
  have h := HasFDerivAt.mul hf hg
  unfold HasGrad; rw [rowL_lin]; exact h

theorem HasGrad.comp {φ : ℝ → ℝ} {d : ℝ} (hφ : HasDerivAt φ d (f p)) (hf : HasGrad f df p) :
    HasGrad (fun q => φ (f q)) (fun j => d * df j) p := by
  have h := hφ.comp_hasFDerivAt p hf
  have e := rowL_lin d 0 df df
  simp only [zero_mul, add_zero, zero_smul] at e
  unfold HasGrad; rw [e]; exact h

theorem HasGrad.smul (c : ℝ) (hf : HasGrad f df p) : HasGrad (fun q => c * f q) (fun j => c * df j) p :=
  ((hasGrad_const c p).mul hf).congr_row fun j => by simp

theorem HasGrad.sub (hf : HasGrad f df p) (hg : HasGrad g dg p) :
    HasGrad (fun q => f q - g q) (fun j => df j - dg j) p := by
  have := hf.add (hg.smul (-1))
  refine HasGrad.congr_fun (this.congr_row fun j => by ring) (Eventually.of_forall fun q => by ring)

theorem HasGrad.inv (h0 : f p ≠ 0) (hf : HasGrad f df p) :
    HasGrad (fun q => (f q)⁻¹) (fun j => -(f p ^ 2)⁻¹ * df j) p := by
  have := HasGrad.comp (hasDerivAt_inv h0) hf
  exact this

theorem HasGrad.div (hf : HasGrad f df p) (hg : HasGrad g dg p) (h0 : g p ≠ 0) :
    HasGrad (fun q => f q / g q) (fun j => df j / g p - f p * dg j / g p ^ 2) p := by
  have := hf.mul (hg.inv h0)
  refine this.congr_row fun j => ?_
  field_simp
  ring

theorem HasGrad.sqrt (hf : HasGrad f df p) (h0 : f p ≠ 0) :
    HasGrad (fun q => √(f q)) (fun j => df j / (2 * √(f p))) p := by
  have := HasGrad.comp (hasDerivAt_sqrt h0) hf
  exact this.congr_row fun j => by ring

end

/-- The derivative of an implicitly defined function, given that it is continuous. -/
theorem implicit_grad {f : (Fin 6 → ℝ) × ℝ → ℝ} {E : (Fin 6 → ℝ) → ℝ} {p : Fin 6 → ℝ} {g : Row} {c : ℝ}
    (hf : HasFDerivAt f ((rowL g).comp (ContinuousLinearMap.fst ℝ (Fin 6 → ℝ) ℝ)
      + c • ContinuousLinearMap.snd ℝ (Fin 6 → ℝ) ℝ) (p, E p))
    (hc : c ≠ 0) (hE : ContinuousAt E p) (h0 : ∀ᶠ q in 𝓝 p, f (q, E q) = 0) :
    HasGrad E (fun j => -g j / c) p := by
  have hp := h0.self_of_nhds
  have ht : Tendsto (fun q => (q, E q)) (𝓝 p) (𝓝 (p, E p)) := (continuousAt_id.prodMk hE)
  have ho := hf.isLittleO.comp_tendsto ht
  unfold HasGrad
  have e := rowL_lin (-1 / c) 0 g g
  have e' : rowL (fun j => -g j / c) = (-1 / c) • rowL g := by
    rw [show (fun j => -g j / c) = fun j => -1 / c * g j + 0 * g j from funext fun j => by ring, e]; simp
  rw [e']
  refine HasFDerivAt.of_isLittleO ?_
  rw [isLittleO_iff]
  intro ε hε
  obtain ⟨K, hK0, hK⟩ : ∃ K, 0 ≤ K ∧ ∀ v, ‖rowL g v‖ ≤ K * ‖v‖ := ⟨‖rowL g‖, norm_nonneg _, (rowL g).le_opNorm⟩
  have hcp : 0 < ‖c‖ := norm_pos_iff.2 hc
  -- a tolerance for the remainder
  obtain ⟨C, hC⟩ : ∃ C, C = 1 + K / ‖c‖ := ⟨_, rfl⟩
  have hCp : 0 < C := by rw [hC]; positivity
  obtain ⟨δ, hδ0, hδ1, hδ2⟩ : ∃ δ, 0 < δ ∧ δ / ‖c‖ ≤ 1 / 2 ∧ 2 * (δ / ‖c‖) * C ≤ ε := by
    refine ⟨‖c‖ * min (1 / 2) (ε / (2 * C)), by positivity, ?_, ?_⟩
    · rw [mul_div_cancel_left₀ _ hcp.ne']; exact min_le_left _ _
    · rw [mul_div_cancel_left₀ _ hcp.ne']
      have : min (1 / 2) (ε / (2 * C)) ≤ ε / (2 * C) := min_le_right _ _
      calc 2 * min (1 / 2) (ε / (2 * C)) * C ≤ 2 * (ε / (2 * C)) * C := by gcongr
        _ = ε := by field_simp
  filter_upwards [(isLittleO_iff.1 ho) hδ0, h0] with q hq hq0
  simp only [Function.comp, hq0, hp, sub_self, zero_sub, norm_neg, ContinuousLinearMap.add_apply,
    ContinuousLinearMap.comp_apply, ContinuousLinearMap.smul_apply, ContinuousLinearMap.coe_fst',
    ContinuousLinearMap.coe_snd', Prod.fst_sub, Prod.snd_sub, smul_eq_mul] at hq
  simp only [ContinuousLinearMap.smul_apply, smul_eq_mul]
  obtain ⟨w, hw⟩ : ∃ w, w = E q - E p - -1 / c * (rowL g) (q - p) := ⟨_, rfl⟩
  rw [← hw]
  have h1 : (rowL g) (q - p) + c * (E q - E p) = c * w := by rw [hw]; field_simp; ring
  rw [h1, norm_mul] at hq
  have h2 : ‖((q, E q) - (p, E p) : (Fin 6 → ℝ) × ℝ)‖ ≤ C * ‖q - p‖ + ‖w‖ := by
    have hx : E q - E p = w + -1 / c * (rowL g) (q - p) := by rw [hw]; ring
    have h3 : ‖E q - E p‖ ≤ ‖w‖ + K / ‖c‖ * ‖q - p‖ := by
      rw [hx]
      refine (norm_add_le _ _).trans ?_
      rw [norm_mul, norm_div, norm_neg, norm_one]
      have := hK (q - p)
      have : 1 / ‖c‖ * ‖(rowL g) (q - p)‖ ≤ 1 / ‖c‖ * (K * ‖q - p‖) := by gcongr
      have e : 1 / ‖c‖ * (K * ‖q - p‖) = K / ‖c‖ * ‖q - p‖ := by ring
      linarith
    rw [Prod.mk_sub_mk, Prod.norm_mk]
    refine max_le ?_ ?_
    · rw [hC]
      have : 0 ≤ K / ‖c‖ * ‖q - p‖ := by positivity
      have := norm_nonneg w
      linarith
    · rw [hC]
      have := norm_nonneg (q - p)
      linarith
  have h4 : ‖w‖ ≤ δ / ‖c‖ * (C * ‖q - p‖ + ‖w‖) := by
    rw [div_mul_eq_mul_div, le_div_iff₀ hcp]
    calc ‖w‖ * ‖c‖ = ‖c‖ * ‖w‖ := mul_comm _ _
      _ ≤ δ * ‖((q, E q) - (p, E p) : (Fin 6 → ℝ) × ℝ)‖ := hq
      _ ≤ δ * (C * ‖q - p‖ + ‖w‖) := by gcongr
  have h5 : δ / ‖c‖ * ‖w‖ ≤ 1 / 2 * ‖w‖ := by gcongr
  have h6 : 2 * (δ / ‖c‖) * C * ‖q - p‖ ≤ ε * ‖q - p‖ := by gcongr
  nlinarith

/-- The solution of an equation that is strictly increasing in the unknown depends continuously on the parameters. -/
theorem implicit_continuous {f : (Fin 6 → ℝ) → ℝ → ℝ} {E : (Fin 6 → ℝ) → ℝ} {p : Fin 6 → ℝ}
    (hm : ∀ᶠ q in 𝓝 p, StrictMono (f q)) (hc : ∀ e, ContinuousAt (fun q => f q e) p)
    (h0 : ∀ᶠ q in 𝓝 p, f q (E q) = 0) : ContinuousAt E p := by
  rw [Metric.continuousAt_iff']
  intro ε hε
  have hmp := hm.self_of_nhds
  have h0p := h0.self_of_nhds
  have l1 : f p (E p - ε) < 0 := by rw [← h0p]; exact hmp (by linarith)
  have l2 : 0 < f p (E p + ε) := by rw [← h0p]; exact hmp (by linarith)
  filter_upwards [(hc (E p - ε)).eventually (gt_mem_nhds l1), (hc (E p + ε)).eventually (lt_mem_nhds l2), hm, h0]
    with q g1 g2 g3 g4
  rw [Real.dist_eq, abs_lt]
  rw [← g4] at g1 g2
  have := g3.lt_iff_lt.1 g1
  have := g3.lt_iff_lt.1 g2
  constructor <;> linarith

end Kep3
