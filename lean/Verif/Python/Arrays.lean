import Verif.SF.Props45
import Verif.SF.Props47
import Verif.HF.Props61
import Verif.HF.TcGrad

/-!
# C79: gradients as two-dimensional arrays in Python

The bindings hand the flat arrays of the C++ gradients to numpy with a shape computed apart from them
(`py::array_t<double>(shape, data, owner)`), without comparing sizes. Here: the shapes fit, no entry is read beyond the data,
and the entry of row `i` and column `j` is the derivative of the `i`-th constraint in the `j`-th variable.
-/

open Topology

namespace Kep3.PyArr

/-- A numpy array of two dimensions over the data of a C++ array, rows one after the other, pykep/core.cpp:358-360, 534-543
and others: nothing relates the shape to the length of the data. -/
structure Arr2 where
  rows : ℕ
  cols : ℕ
  data : List ℝ

/-- `a[i, j]`: numpy compares the indices with the shape, and reads the memory. -/
def Arr2.at (a : Arr2) (i j : ℕ) : Res ℝ :=
  if i < a.rows ∧ j < a.cols then
    match a.data[i * a.cols + j]? with
    | some x => .ok x
    | none => .ub
  else .err .index

/-- `nseg * 3 + 1u` and `nseg * 3`, of C type `unsigned`. -/
def u32 (n : ℕ) : ℕ := n % 2 ^ 32

/-- `compute_mc_grad` of the Sims-Flanagan leg, pykep/core.cpp:506-546. -/
noncomputable def sfMcGrad (φ : RV ℝ → ℝ → RV ℝ) (Φ : RV ℝ → ℝ → Matrix (Fin 6) (Fin 6) ℝ) (l : SF.Leg ℝ) :
    Arr2 × Arr2 × Arr2 :=
  let g := SF.mcGrad φ Φ l
  (⟨7, 7, g.1⟩, ⟨7, 7, g.2.1⟩, ⟨7, u32 (l.nseg * 3 + 1), g.2.2⟩)

/-- `compute_tc_grad` of the Sims-Flanagan leg, pykep/core.cpp:547-571. -/
noncomputable def sfTcGrad (l : SF.Leg ℝ) : Res Arr2 := do
  let g ← SF.tcGrad l
  return ⟨l.nseg, u32 (l.nseg * 3), g⟩

/-- `compute_tc_grad` of the high-fidelity leg, pykep/core.cpp:672-696. -/
noncomputable def hfTcGrad (l : HF.Leg ℝ) : Res Arr2 := do
  let g ← HF.tcGrad l
  return ⟨l.nseg, u32 (l.nseg * 3), g⟩

/-- The last array of `compute_mc_grad` of the high-fidelity leg, pykep/core.cpp:631-669. -/
noncomputable def hfThGrad (E : HF.Env ℝ) (l : HF.Leg ℝ) : Res Arr2 := do
  let g ← (HF.computeMcGrad E l).1
  return ⟨7, u32 (l.nseg * 3 + 1), g.gradFinal⟩

theorem at_ok {a : Arr2} (h : a.data.length = a.rows * a.cols) {i j : ℕ} (hi : i < a.rows) (hj : j < a.cols) :
    a.at i j = .ok (a.data.getD (i * a.cols + j) 0) := by
  have : i * a.cols + j < a.data.length := by
    rw [h]
    calc i * a.cols + j < i * a.cols + a.cols := by omega
      _ = (i + 1) * a.cols := by ring
      _ ≤ _ := Nat.mul_le_mul_right _ hi
  unfold Arr2.at
  rw [if_pos ⟨hi, hj⟩, List.getD_eq_getElem?_getD, List.getElem?_eq_getElem this]
  rfl

/-- **C79**: the entries of the gradients of the Sims-Flanagan leg. Along every family of legs that is differentiable as in
`C47_mc_grad`, the derivative of the mismatch is the sum of the entries of the three arrays times the velocities of the
variables in their order; no entry lies beyond the data. -/
theorem C79_sf_mc_grad {φ : RV ℝ → ℝ → RV ℝ} {Φ : RV ℝ → ℝ → Matrix (Fin 6) (Fin 6) ℝ} (hφ : SF.Reversible φ)
    {l : ℝ → SF.Leg ℝ} {xs' : Fin 6 → ℝ} {ms' : ℝ} {xf' : Fin 6 → ℝ} {mf' : ℝ} {th' : ℕ → ℝ} {tof' : ℝ}
    (L : SF.LegCurve l xs' ms' xf' mf' th' tof') (R : SF.Regular (l 0)) (hn : 3 * (l 0).nseg + 1 < 2 ^ 32)
    (hF : ∀ i, i ≤ (l 0).nsegFwd →
      SF.FlowDeriv φ Φ (l 0).mu ((SF.fwdHalf (l 0)).before φ i) ((SF.fwdHalf (l 0)).dur i))
    (hB : ∀ i, i ≤ (l 0).nsegBck →
      SF.FlowDeriv φ Φ (l 0).mu ((SF.bckArgs (SF.bckHalf (l 0))).before φ i) ((SF.bckArgs (SF.bckHalf (l 0))).dur i)) :
    ∃ A B C : ℕ → ℕ → ℝ,
      (∀ i j, i < 7 → j < 7 → (sfMcGrad φ Φ (l 0)).1.at i j = .ok (A i j)) ∧
      (∀ i j, i < 7 → j < 7 → (sfMcGrad φ Φ (l 0)).2.1.at i j = .ok (B i j)) ∧
      (∀ i j, i < 7 → j < 3 * (l 0).nseg + 1 → (sfMcGrad φ Φ (l 0)).2.2.at i j = .ok (C i j)) ∧
      ∃ D : ℝ → RV ℝ × ℝ,
        (∀ᶠ e in 𝓝 0, SF.computeMismatch (fun x t => some (φ x t)) (l e) = .ok (some (D e).1, (D e).2)) ∧
        ∀ r : Fin 7, HasDerivAt (fun e => SF.vec7 (D e).1 (D e).2 r)
          ((∑ j : Fin 6, A r j * xs' j + A r 6 * ms') + (∑ j : Fin 6, B r j * xf' j + B r 6 * mf') +
           (∑ j ∈ Finset.range (3 * (l 0).nseg), C r j * th' j + C r (3 * (l 0).nseg) * tof')) 0 := by
  obtain ⟨gs, gf, g, hg, h1, h2, h3, D, h4, h5⟩ := SF.C47_mc_grad hφ L R hF hB
  have hu : u32 ((l 0).nseg * 3 + 1) = 3 * (l 0).nseg + 1 := by unfold u32; omega
  refine ⟨fun i j => gs.getD (7 * i + j) 0, fun i j => gf.getD (7 * i + j) 0,
    fun i j => g.getD ((3 * (l 0).nseg + 1) * i + j) 0, ?_, ?_, ?_, D, h4, h5⟩
  · intro i j hi hj
    have e : (sfMcGrad φ Φ (l 0)).1 = ⟨7, 7, gs⟩ := by simp [sfMcGrad, hg]
    rw [e, at_ok h1 hi hj]
    simp only [mul_comm 7 i]
  · intro i j hi hj
    have e : (sfMcGrad φ Φ (l 0)).2.1 = ⟨7, 7, gf⟩ := by simp [sfMcGrad, hg]
    rw [e, at_ok h2 hi hj]
    simp only [mul_comm 7 i]
  · intro i j hi hj
    have e : (sfMcGrad φ Φ (l 0)).2.2 = ⟨7, 3 * (l 0).nseg + 1, g⟩ := by simp [sfMcGrad, hg, hu]
    rw [e, at_ok h3 hi hj]
    simp only [mul_comm (3 * (l 0).nseg + 1) i]

/-- **C79**: the entry of row `i` and column `j` of `compute_tc_grad` is the derivative of the `i`-th throttle constraint in
the `j`-th component of the throttles, for every leg with three components per segment. -/
theorem C79_sf_tc_grad (l : SF.Leg ℝ) (ht : l.throttles.length = 3 * l.nseg) (hn : 3 * l.nseg < 2 ^ 32) :
    ∃ a, sfTcGrad l = .ok a ∧ ∀ i j, i < l.nseg → j < 3 * l.nseg → ∃ d con, a.at i j = .ok d ∧
      (∀ x, ∃ cs, SF.throttleConstraints { l with throttles := l.throttles.set j x } = .ok cs ∧ cs[i]? = some (con x)) ∧
      HasDerivAt con d (l.throttles.getD j 0) := by
  obtain ⟨g, h1, h2, h3⟩ := SF.C45_tc_grad_is_jacobian l ht
  have hu : u32 (l.nseg * 3) = 3 * l.nseg := by unfold u32; omega
  refine ⟨⟨l.nseg, 3 * l.nseg, g⟩, by simp [sfTcGrad, h1, hu], fun i j hi hj => ?_⟩
  obtain ⟨d, con, h4, h5, h6⟩ := h3 i j hi hj
  refine ⟨d, con, ?_, h5, h6⟩
  simp [Arr2.at, hi, hj, h4]

/-- **C79**: the same for the high-fidelity leg, whose constraints are `|u_i|² - 1`. -/
theorem C79_hf_tc_grad (l : HF.Leg ℝ) (ht : l.throttles.length = 3 * l.nseg) (hn : 3 * l.nseg < 2 ^ 32) :
    ∃ a, hfTcGrad l = .ok a ∧ ∀ i j, i < l.nseg → j < 3 * l.nseg →
      a.at i j = .ok (if j / 3 = i then 2 * l.throttles.getD j 0 else 0) := by
  obtain ⟨g, h1, h2, h3⟩ := HF.C62_tc_grad l ht
  have hu : u32 (l.nseg * 3) = 3 * l.nseg := by unfold u32; omega
  refine ⟨⟨l.nseg, 3 * l.nseg, g⟩, by simp [hfTcGrad, h1, hu], fun i j hi hj => ?_⟩
  rw [at_ok h2 hi hj, h3 i hi j hj]

/-- **C79**: the last array of `compute_mc_grad` of the high-fidelity leg: columns `3 i + k` belong to the thrusts (which is
why the gradient fails for other maximum thrusts, `C61_missing_factor`), the last one to the time of flight. -/
theorem C79_hf_th_grad {E : HF.Env ℝ} {φ : HF.Flow} {σ : HF.FlowSens} (hE : HF.ExactFlow E φ σ) {l : ℝ → HF.Leg ℝ}
    {xs' xf' : Fin 7 → ℝ} {th' : ℕ → ℝ} {tof' : ℝ} (L : HF.LegCurve E l xs' xf' th' tof') (hD : HF.AllDiff E φ σ (l 0))
    (hn : 3 * (l 0).nseg + 1 < 2 ^ 32) :
    ∃ a g, hfThGrad E (l 0) = .ok a ∧ (HF.computeMcGrad E (l 0)).1 = .ok g ∧ ∃ C : ℕ → ℕ → ℝ,
      (∀ i j, i < 7 → j < 3 * (l 0).nseg + 1 → a.at i j = .ok (C i j)) ∧
      ∃ D : ℝ → HF.St ℝ, (∀ e, (HF.computeMismatch E (l e)).1 = .ok (D e)) ∧
        ∀ r : Fin 7, HasDerivAt (fun e => (D e).vec r)
          (∑ k, g.gradRvm r k * xs' k + ∑ k, g.gradRvmBck r k * xf' k +
            (∑ i ∈ Finset.range (l 0).nseg, ∑ k : Fin 3, C r (3 * i + k) * ((l 0).maxThrust * th' (3 * i + k)) +
             C r (3 * (l 0).nseg) * tof')) 0 := by
  obtain ⟨g, h1, h2, D, h3, h4⟩ := HF.C61_gradient_wrt_thrusts hE L hD
  have hu : u32 ((l 0).nseg * 3 + 1) = 3 * (l 0).nseg + 1 := by unfold u32; omega
  refine ⟨⟨7, 3 * (l 0).nseg + 1, g.gradFinal⟩, g, by simp [hfThGrad, h1, hu], h1,
    fun i j => g.gradFinal.getD ((3 * (l 0).nseg + 1) * i + j) 0, fun i j hi hj => ?_, D, h3, h4⟩
  rw [at_ok h2 hi hj]
  simp only [mul_comm (3 * (l 0).nseg + 1) i]

/-- A concrete case: two segments; a row of `compute_tc_grad` has six entries, and the seventh is an error of Python. -/
example (l : SF.Leg ℝ) (h : l.throttles = [1, 2, 3, 4, 5, 6]) (hn : l.nseg = 2) :
    ∃ a, sfTcGrad l = .ok a ∧ (∃ d, a.at 1 5 = .ok d) ∧ a.at 1 6 = .err .index := by
  have ht : l.throttles.length = 3 * l.nseg := by rw [h, hn]; rfl
  obtain ⟨a, ha, h1⟩ := C79_sf_tc_grad l ht (by rw [hn]; norm_num)
  obtain ⟨d, _, hd, _⟩ := h1 1 5 (by omega) (by omega)
  refine ⟨a, ha, ⟨d, hd⟩, ?_⟩
  obtain ⟨g, hg, _⟩ := SF.C45_tc_grad_is_jacobian l ht
  simp only [sfTcGrad, hg, Res.ok_bind, Res.pure_eq, Res.ok.injEq] at ha
  subst ha
  simp [Arr2.at, hn, u32]

end Kep3.PyArr
