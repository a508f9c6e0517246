import Verif.Lagr.Props21
import Verif.Lagr.ReyRun

/-!
# The state transition matrix

The 36 numbers returned by `propagate_lagrangian` and by `propagate_stm_reynolds`, read by rows, are the Jacobian of the
propagated state with respect to the initial state. `pack` and `unpack` order a state as x, y, z, vx, vy, vz.
-/

namespace Kep3
open Real Filter Topology V3 Matrix

/-- Thirty-six numbers read by rows. -/
def mat (M : Fin 36 → ℝ) : Mat6 := fun i j => M ⟨6 * i.val + j.val, by omega⟩

theorem mat_flat (m : Fin 6 → Row) : mat (flat m) = m := by
  funext i j
  have hi : (⟨(6 * i.val + j.val) / 6, by omega⟩ : Fin 6) = i := Fin.ext (by change (6 * i.val + j.val) / 6 = i.val; omega)
  have hj : (⟨(6 * i.val + j.val) % 6, by omega⟩ : Fin 6) = j := Fin.ext (by change (6 * i.val + j.val) % 6 = j.val; omega)
  change m ⟨(6 * i.val + j.val) / 6, _⟩ ⟨(6 * i.val + j.val) % 6, _⟩ = m i j
  rw [hi, hj]

theorem flat_mat (M : Fin 36 → ℝ) : flat (mat M) = M := by
  funext k
  have hk : (⟨6 * (k.val / 6) + k.val % 6, by omega⟩ : Fin 36) = k :=
    Fin.ext (by change 6 * (k.val / 6) + k.val % 6 = k.val; omega)
  change M ⟨6 * (k.val / 6) + k.val % 6, _⟩ = M k
  rw [hk]

theorem propStm_cases {sv : Solver} {x : RV ℝ} {tof mu : ℝ} {y : RV ℝ} {m : Option (Fin 36 → ℝ)} {b : Bool}
    (h : propagateLagrangianStm sv x tof mu b = .ok (some (y, m))) :
    ∃ l, lagr sv x tof mu = .ok (some l) ∧ y = l.state x ∧
      m = if b then some (flat (stmLagrangian x tof mu l)) else none := by
  unfold propagateLagrangianStm at h
  cases hl : lagr sv x tof mu with
  | ok o =>
    rw [hl] at h
    cases o with
    | none => exact nomatch h
    | some l =>
      have h : Res.ok (some (l.state x, if b then some (flat (stmLagrangian x tof mu l)) else none))
        = Res.ok (some (y, m)) := h
      have h := Prod.mk.inj (Option.some.inj (Res.ok.inj h))
      exact ⟨l, rfl, h.1.symm, h.2.symm⟩
  | err e => rw [hl] at h; exact nomatch h
  | ub => rw [hl] at h; exact nomatch h

/-- **C24**: asking for the state transition matrix changes neither the state nor the errors, and the matrix is present
exactly when it is asked for. -/
theorem C24_stm_flag (sv : Solver) (x : RV ℝ) (tof mu : ℝ) (b : Bool) :
    (∀ y, (∃ m, propagateLagrangianStm sv x tof mu b = .ok (some (y, m))) ↔
      propagateLagrangian sv x tof mu = .ok (some y)) ∧
    (∀ e, propagateLagrangianStm sv x tof mu b = .err e ↔ propagateLagrangian sv x tof mu = .err e) ∧
    (∀ y m, propagateLagrangianStm sv x tof mu b = .ok (some (y, m)) → (m.isSome ↔ b = true)) := by
  unfold propagateLagrangianStm propagateLagrangian
  cases lagr sv x tof mu with
  | ok o =>
    cases o with
    | none =>
      refine ⟨fun y => ⟨fun ⟨m, h⟩ => (nomatch h), fun h => (nomatch h)⟩, fun e => ⟨fun h => (nomatch h), fun h => (nomatch h)⟩,
        fun y m h => (nomatch h)⟩
    | some l =>
      refine ⟨fun y => ⟨fun ⟨m, h⟩ => ?_, fun h => ?_⟩, fun e => ⟨fun h => (nomatch h), fun h => (nomatch h)⟩, fun y m h => ?_⟩
      · have h := (Prod.mk.inj (Option.some.inj (Res.ok.inj h))).1
        rw [← h]; rfl
      · have h := Option.some.inj (Res.ok.inj h)
        rw [← h]; exact ⟨_, rfl⟩
      · have h := (Prod.mk.inj (Option.some.inj (Res.ok.inj h))).2
        rw [← h]; cases b <;> simp
  | err e' =>
    refine ⟨fun y => ⟨fun ⟨m, h⟩ => (nomatch h), fun h => (nomatch h)⟩, fun e => ⟨fun h => congrArg _ (Res.err.inj h), fun h => congrArg _ (Res.err.inj h)⟩, fun y m h => (nomatch h)⟩
  | ub =>
    refine ⟨fun y => ⟨fun ⟨m, h⟩ => (nomatch h), fun h => (nomatch h)⟩, fun e => ⟨fun h => (nomatch h), fun h => (nomatch h)⟩,
      fun y m h => (nomatch h)⟩

theorem lagr_energy {sv : Solver} {x : RV ℝ} {tof mu : ℝ} {l : Lagr} (hl : lagr sv x tof mu = .ok (some l)) :
    energy x mu ≠ 0 := by
  intro h
  unfold lagr at hl
  simp only at hl
  split at hl
  · exact nomatch hl
  · rw [if_pos (show (x.v.x * x.v.x + x.v.y * x.v.y + x.v.z * x.v.z) / 2
      - mu / √(x.r.x * x.r.x + x.r.y * x.r.y + x.r.z * x.r.z) = 0 from h)] at hl
    exact nomatch hl

section
variable {sv : Solver} (hsv : sv.Sound) {x : RV ℝ} {mu : ℝ} (hmu : 0 < mu) (hh : cross x.r x.v ≠ 0)
include hsv hmu hh

theorem propStm_jac {tof : ℝ} (hr : HypRange x mu tof) {y : RV ℝ} {M : Fin 36 → ℝ}
    (h : propagateLagrangianStm sv x tof mu true = .ok (some (y, some M))) :
    energy x mu ≠ 0 ∧ y = kepFlow x mu tof ∧ IsJac x mu tof (mat M) := by
  obtain ⟨l, hl, hy, hm⟩ := propStm_cases h
  have hE := lagr_energy hl
  refine ⟨hE, ?_, ?_⟩
  · exact propL_flow hsv hmu hh hE hr (((C24_stm_flag sv x tof mu true).1 y).1 ⟨_, h⟩)
  · rw [if_pos rfl] at hm
    rw [Option.some.inj hm, mat_flat]
    intro i
    have := stm_jac (p := pack x) hmu (by rw [unpack_pack]; exact hh) sv hsv tof (l := l) (by simpa using hl) (by simpa using hr) i
    simpa using this

/-- **C25**: the returned matrix is the derivative of the two-body flow: for any map `P` that takes each initial state
near the given one to the state reached from there after the time of flight by a solution of the two-body problem, the
i-th component of `P` is differentiable with partial derivatives `M[6 i + j]`. -/
theorem C25_jacobian {tof : ℝ} (hr : HypRange x mu tof) {y : RV ℝ} {M : Fin 36 → ℝ}
    (h : propagateLagrangianStm sv x tof mu true = .ok (some (y, some M))) {P : (Fin 6 → ℝ) → Fin 6 → ℝ}
    (hP : ∀ᶠ q in 𝓝 (pack x), ∃ γ, TwoBody mu γ ∧ γ 0 = unpack q ∧ γ tof = unpack (P q)) (i : Fin 6) :
    HasFDerivAt (fun q => P q i)
      (∑ j : Fin 6, M ⟨6 * i.val + j.val, by omega⟩ • ContinuousLinearMap.proj (R := ℝ) (φ := fun _ => ℝ) j) (pack x) := by
  have hj := (propStm_jac hsv hmu hh hr h).2.2 i
  refine HasGrad.congr_fun hj ?_
  filter_upwards [hP, eventually_angMom (p := pack x) (by rw [unpack_pack]; exact hh)] with q ⟨γ, hγ, h0, h1⟩ hq
  have := twoBody_unique hmu hγ (by rw [h0]; exact hq) tof
  rw [h0] at this
  rw [← this, h1, pack_unpack]

/-- **C25**: the returned matrix is the derivative of the function that the propagator computes, for ellipses, and for
hyperbolas inside the search interval. -/
theorem C25_propagator {tof : ℝ} (hr : energy x mu < 0 ∨ (0 < energy x mu → √mu * |tof| * √(-alphaOf x mu) ^ 3 < 10 ^ 10))
    {y : RV ℝ} {M : Fin 36 → ℝ}
    (h : propagateLagrangianStm sv x tof mu true = .ok (some (y, some M))) {P : (Fin 6 → ℝ) → Fin 6 → ℝ}
    (hP : ∀ᶠ q in 𝓝 (pack x), propagateLagrangian sv (unpack q) tof mu = .ok (some (unpack (P q)))) (i : Fin 6) :
    HasFDerivAt (fun q => P q i)
      (∑ j : Fin 6, M ⟨6 * i.val + j.val, by omega⟩ • ContinuousLinearMap.proj (R := ℝ) (φ := fun _ => ℝ) j) (pack x) := by
  have hr' : HypRange x mu tof := by
    intro hE
    rcases hr with hr | hr
    · exact absurd hE hr.not_gt
    · exact (hr hE).le
  have hE := (propStm_jac hsv hmu hh hr' h).1
  refine C25_jacobian hsv hmu hh hr' h ?_ i
  -- nearby states are in range
  have ha : ContinuousAt (fun q => energy (unpack q) mu) (pack x) :=
    (grad_energy (p := pack x) (by simpa using r_ne_of_h hh)).continuousAt
  have hα : (fun q => alphaOf (unpack q) mu) =ᶠ[𝓝 (pack x)] fun q => -(2 / mu) * energy (unpack q) mu := by
    filter_upwards [eventually_angMom (p := pack x) (by rw [unpack_pack]; exact hh)] with q hq
    rw [energy_alpha hmu hq]; field_simp
  have hnear : ∀ᶠ q in 𝓝 (pack x), HypRange (unpack q) mu tof := by
    rcases lt_or_gt_of_ne hE with hE | hE
    · have : ∀ᶠ q in 𝓝 (pack x), energy (unpack q) mu < 0 := ha.eventually_lt continuousAt_const (by simpa using hE)
      filter_upwards [this] with q hq
      exact fun h => absurd h hq.not_gt
    · have hr2 := (hr.resolve_left hE.not_gt) hE
      have hc : ContinuousAt (fun q => √mu * |tof| * √(-alphaOf (unpack q) mu) ^ 3) (pack x) := by
        have : ContinuousAt (fun q => alphaOf (unpack q) mu) (pack x) :=
          (ContinuousAt.mul continuousAt_const ha).congr hα.symm
        exact continuousAt_const.mul ((this.neg.sqrt).pow 3)
      have : ∀ᶠ q in 𝓝 (pack x), √mu * |tof| * √(-alphaOf (unpack q) mu) ^ 3 < 10 ^ 10 :=
        hc.eventually_lt continuousAt_const (by simpa using hr2)
      filter_upwards [this] with q hq
      exact fun _ => hq.le
  have hE0 : ∀ᶠ q in 𝓝 (pack x), energy (unpack q) mu ≠ 0 := ha.eventually_ne (by simpa using hE)
  filter_upwards [hP, hnear, hE0, eventually_angMom (p := pack x) (by rw [unpack_pack]; exact hh)] with q h1 h2 h3 h4
  exact ⟨kepFlow (unpack q) mu, kepFlow_twoBody hmu h4, kepFlow_zero hmu h4, (propL_flow hsv hmu h4 h3 h2 h1).symm⟩

/-- **C25**: the matrix is returned, unless the root finder uses up its iterations. -/
theorem C25_returns {tof : ℝ} (hE : energy x mu ≠ 0) (hr : HypRange x mu tof) :
    (∃ y M, propagateLagrangianStm sv x tof mu true = .ok (some (y, some M))) ∨
      (propagateLagrangianStm sv x tof mu true = .err .domainError ∧ ¬ sv.Quick) := by
  rcases C21_returns hsv hmu hh hE hr with ⟨y, h⟩ | ⟨h, hq⟩
  · obtain ⟨m, hm⟩ := ((C24_stm_flag sv x tof mu true).1 y).2 h
    obtain ⟨M, rfl⟩ := Option.isSome_iff_exists.1 (((C24_stm_flag sv x tof mu true).2.2 y m hm).2 rfl)
    exact Or.inl ⟨y, M, hm⟩
  · exact Or.inr ⟨((C24_stm_flag sv x tof mu true).2.1 _).2 h, hq⟩

/-- **C25**: for a zero time of flight it is the identity. -/
theorem C25_identity {y : RV ℝ} {M : Fin 36 → ℝ}
    (h : propagateLagrangianStm sv x 0 mu true = .ok (some (y, some M))) (i j : Fin 6) :
    M ⟨6 * i.val + j.val, by omega⟩ = if i = j then 1 else 0 := by
  have := (propStm_jac hsv hmu hh (fun _ => by norm_num) h).2.2.unique (isJac_zero hmu hh)
  have := congrFun (congrFun this i) j
  rw [Matrix.one_apply] at this
  exact this

/-- **C25**: the matrix over `t1 + t2` is the product of the matrix over `t2` from the state at `t1` and the matrix
over `t1`. -/
theorem C25_compose {t1 t2 : ℝ} (hr1 : HypRange x mu t1) (hr2 : HypRange x mu t2) (hr : HypRange x mu (t1 + t2))
    {y z w : RV ℝ} {M N L : Fin 36 → ℝ} (h1 : propagateLagrangianStm sv x t1 mu true = .ok (some (y, some M)))
    (h2 : propagateLagrangianStm sv y t2 mu true = .ok (some (z, some N)))
    (h : propagateLagrangianStm sv x (t1 + t2) mu true = .ok (some (w, some L))) (i j : Fin 6) :
    L ⟨6 * i.val + j.val, by omega⟩ =
      ∑ k : Fin 6, N ⟨6 * i.val + k.val, by omega⟩ * M ⟨6 * k.val + j.val, by omega⟩ := by
  obtain ⟨hE, rfl, j1⟩ := propStm_jac hsv hmu hh hr1 h1
  have e1 : energy (kepFlow x mu t1) mu = energy x mu := energy_stateU hmu hh _
  have e3 : alphaOf (kepFlow x mu t1) mu = alphaOf x mu := alphaOf_stateU hmu hh _
  obtain ⟨-, -, j2⟩ := propStm_jac hsv hmu (x := kepFlow x mu t1) (angMom_flow hmu hh t1)
    (by unfold HypRange; rw [e1, e3]; exact hr2) h2
  obtain ⟨-, -, j3⟩ := propStm_jac hsv hmu hh hr h
  have := congrFun (congrFun (j3.unique (IsJac.comp hmu hh j1 j2)) i) j
  rw [Matrix.mul_apply] at this
  exact this

/-- **C25**: as functions of the time of flight, the entries satisfy the linearised equations of motion along the
trajectory: position rows have the velocity rows as derivatives, and velocity rows have
`-mu/R^3 dr + 3 mu/R^5 (r . dr) r`. -/
theorem C25_variational {Y : ℝ → RV ℝ} {M : ℝ → Fin 36 → ℝ} {t : ℝ}
    (h : ∀ᶠ s in 𝓝 t, HypRange x mu s ∧ propagateLagrangianStm sv x s mu true = .ok (some (Y s, some (M s))))
    (j : Fin 6) :
    (∀ i : Fin 3, HasDerivAt (fun s => M s ⟨6 * i.val + j.val, by omega⟩) (M t ⟨6 * (i.val + 3) + j.val, by omega⟩) t) ∧
    (∀ i : Fin 3, HasDerivAt (fun s => M s ⟨6 * (i.val + 3) + j.val, by omega⟩)
      (-(mu / norm (Y t).r ^ 3) * M t ⟨6 * i.val + j.val, by omega⟩
        + 3 * mu / norm (Y t).r ^ 5 * ((Y t).r.x * M t ⟨j.val, by omega⟩ + (Y t).r.y * M t ⟨6 + j.val, by omega⟩
          + (Y t).r.z * M t ⟨12 + j.val, by omega⟩) * (Y t).r.get i) t) := by
  have ht := h.self_of_nhds
  obtain ⟨hE, hY, hJt⟩ := propStm_jac hsv hmu hh ht.1 ht.2
  obtain ⟨J, hJ, -⟩ := exists_jac0 hmu hh hE
  have heq : ∀ᶠ s in 𝓝 t, mat (M s) = J s := by
    filter_upwards [h] with s hs
    exact (propStm_jac hsv hmu hh hs.1 hs.2).2.2.unique (hJ s)
  have hent : ∀ i : Fin 6, HasDerivAt (fun s => mat (M s) i j) (∑ k, gravJac (Y t) mu i k * mat (M t) k j) t := by
    intro i
    have hv := jac_variational hmu hh hE hJ t i j
    rw [← heq.self_of_nhds, ← hY] at hv
    refine hv.congr_of_eventuallyEq ?_
    filter_upwards [heq] with s hs
    rw [hs]
  have m0 : ∀ s, mat (M s) 0 j = M s ⟨j.val, by omega⟩ := fun s => by unfold mat; congr 1; apply Fin.ext; simp
  have m1 : ∀ s, mat (M s) 1 j = M s ⟨6 + j.val, by omega⟩ := fun s => by unfold mat; congr 1
  have m2 : ∀ s, mat (M s) 2 j = M s ⟨12 + j.val, by omega⟩ := fun s => by unfold mat; congr 1
  constructor
  · intro i
    fin_cases i
    · refine (hent 0).congr_deriv ?_
      simp only [Fin.sum_univ_six, gravJac]; simp [seedV]; rfl
    · refine (hent 1).congr_deriv ?_
      simp only [Fin.sum_univ_six, gravJac]; simp [seedV]; rfl
    · refine (hent 2).congr_deriv ?_
      simp only [Fin.sum_univ_six, gravJac]; simp [seedV]; rfl
  · rw [← m0, ← m1, ← m2]
    intro i
    fin_cases i
    · refine (hent 3).congr_deriv ?_
      change _ = -(mu / norm (Y t).r ^ 3) * mat (M t) 0 j + _
      simp only [Fin.sum_univ_six, gravJac]; simp [seedV, seedR, dotRow, V3.get]; ring
    · refine (hent 4).congr_deriv ?_
      change _ = -(mu / norm (Y t).r ^ 3) * mat (M t) 1 j + _
      simp only [Fin.sum_univ_six, gravJac]; simp [seedV, seedR, dotRow, V3.get]; ring
    · refine (hent 5).congr_deriv ?_
      change _ = -(mu / norm (Y t).r ^ 3) * mat (M t) 2 j + _
      simp only [Fin.sum_univ_six, gravJac]; simp [seedV, seedR, dotRow, V3.get]; ring

/-- **C25**: the matrix is symplectic: it preserves `dr . dv' - dv . dr'`. -/
theorem C25_symplectic {tof : ℝ} (hr : HypRange x mu tof) {y : RV ℝ} {M : Fin 36 → ℝ}
    (h : propagateLagrangianStm sv x tof mu true = .ok (some (y, some M))) (u w : Fin 6 → ℝ) :
    omega (fun i => ∑ j : Fin 6, M ⟨6 * i.val + j.val, by omega⟩ * u j)
      (fun i => ∑ j : Fin 6, M ⟨6 * i.val + j.val, by omega⟩ * w j) = omega u w := by
  obtain ⟨hE, -, hj⟩ := propStm_jac hsv hmu hh hr h
  exact jac_symplectic hmu hh hE hj u w

/-- **C25**: `propagate_stm_reynolds` returns the same state and the same matrix as `propagate_lagrangian`, when the
inversion of non-singular matrices succeeds. -/
theorem C25_reynolds {inv : Mat6 → Option Mat6} (hinv : InvSpec inv) {tof : ℝ} (hr : HypRange x mu tof) {y : RV ℝ}
    {M : Fin 36 → ℝ} (h : propagateLagrangianStm sv x tof mu true = .ok (some (y, some M))) :
    propagateStmReynolds sv inv x tof mu true = .ok (some (y, some M)) := by
  obtain ⟨hE, hy, hj⟩ := propStm_jac hsv hmu hh hr h
  have h1 := ((C24_stm_flag sv x tof mu true).1 y).1 ⟨_, h⟩
  unfold propagateStmReynolds
  rw [h1]
  change (match stmReynolds inv x y tof mu with
      | none => Res.err .runtimeError
      | some M => Res.ok (some (y, some (flat M)))) = _
  rw [hy, stmReynolds_eq hmu hh hinv hE hj]
  simp only [flat_mat]

end

/-- The inverse of Mathlib meets the assumption about the inversion. -/
example : InvSpec fun A => some A⁻¹ := fun A hA => ⟨A⁻¹, rfl, Matrix.mul_nonsing_inv A hA⟩

/-- An ellipse that meets the hypotheses, at all times. -/
example (tof : ℝ) : ∃ y M, propagateLagrangianStm idealSolver siOrbit tof 400000000000000 true = .ok (some (y, some M)) ∧
    propagateStmReynolds idealSolver (fun A => some A⁻¹) siOrbit tof 400000000000000 true = .ok (some (y, some M)) := by
  have hr : HypRange siOrbit 400000000000000 tof := fun h => absurd h siOrbit_energy.not_gt
  rcases C25_returns idealSolver_sound (by norm_num) siOrbit_h siOrbit_energy.ne hr with ⟨y, M, h⟩ | ⟨-, h⟩
  · exact ⟨y, M, h, C25_reynolds idealSolver_sound (by norm_num) siOrbit_h
      (fun A hA => ⟨A⁻¹, rfl, Matrix.mul_nonsing_inv A hA⟩) hr h⟩
  · exact absurd idealSolver_quick h

/-- A hyperbola that meets the hypotheses. -/
example (tof : ℝ) (h0 : |tof| ≤ 1000) : HypRange hypOrbit 1 tof ∧
    ∃ y M, propagateLagrangianStm idealSolver hypOrbit tof 1 true = .ok (some (y, some M)) := by
  have hr : HypRange hypOrbit 1 tof := by
    intro _
    rw [hypOrbit_alpha, sqrt_one]
    have h2 : √(- -2 : ℝ) ≤ 2 := by rw [neg_neg]; exact sqrt_le_iff.2 ⟨by norm_num, by norm_num⟩
    have h3 : √(- -2 : ℝ) ^ 3 ≤ 8 := by
      have := pow_le_pow_left₀ (sqrt_nonneg _) h2 3
      linarith
    have h4 := pow_nonneg (sqrt_nonneg (- -2 : ℝ)) 3
    have := abs_nonneg tof
    nlinarith
  refine ⟨hr, ?_⟩
  rcases C25_returns idealSolver_sound one_pos hypOrbit_h' (by rw [hypOrbit_energy]; norm_num) hr with h | ⟨-, h⟩
  · exact h
  · exact absurd idealSolver_quick h

end Kep3
