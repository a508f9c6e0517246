import Verif.Lagr.StmLin
import Mathlib.Analysis.SpecialFunctions.Pow.Deriv

/-!
# The two-body motion as a function of the initial state and the time together

`kepFlow` is differentiable in the state and the time jointly, away from radial and parabolic states. The differentiability in
the state alone (the state transition matrix) is known for every fixed time; a change of the time is turned into a change of the
state by the similarity of two-body motions: multiplying positions by `c²`, velocities by `1/c` and times by `c³` gives
two-body motions.
-/

namespace Kep3
open Real Filter Topology V3

/-- Positions multiplied by `a`, velocities by `b`. -/
def RV.scale (a b : ℝ) (x : RV ℝ) : RV ℝ := ⟨a • x.r, b • x.v⟩

/-- The same on six coordinates. -/
def scaleQ (a b : ℝ) (q : Fin 6 → ℝ) : Fin 6 → ℝ := ![a * q 0, a * q 1, a * q 2, b * q 3, b * q 4, b * q 5]

theorem unpack_scaleQ (a b : ℝ) (q : Fin 6 → ℝ) : unpack (scaleQ a b q) = (unpack q).scale a b := by
  unfold unpack scaleQ RV.scale
  apply RV.ext <;> ext <;> simp

theorem pack_scale (a b : ℝ) (x : RV ℝ) : pack (x.scale a b) = scaleQ a b (pack x) := by
  conv_lhs => rw [← unpack_pack x, ← unpack_scaleQ, pack_unpack]

theorem scaleQ_one (q : Fin 6 → ℝ) : scaleQ 1 1 q = q := by
  funext i; fin_cases i <;> simp [scaleQ]

theorem angMom_scale (a b : ℝ) (x : RV ℝ) : angMom (x.scale a b) = (a * b) • angMom x := by
  unfold angMom RV.scale; ext <;> simp <;> ring

theorem norm_smul_pos {a : ℝ} (ha : 0 ≤ a) (r : V3 ℝ) : V3.norm (a • r) = a * V3.norm r := by
  unfold V3.norm V3.dot
  rw [show (a • r).x * (a • r).x + (a • r).y * (a • r).y + (a • r).z * (a • r).z =
    a ^ 2 * (r.x * r.x + r.y * r.y + r.z * r.z) by simp; ring, Real.sqrt_mul (sq_nonneg a), Real.sqrt_sq ha]

theorem smul_ne {k : ℝ} (hk : k ≠ 0) {u : V3 ℝ} (hu : u ≠ 0) : k • u ≠ 0 := by
  intro h
  apply hu
  have h1 := congrArg V3.x h; have h2 := congrArg V3.y h; have h3 := congrArg V3.z h
  simp only [V3.smul_x, V3.smul_y, V3.smul_z, V3.zero_x, V3.zero_y, V3.zero_z, mul_eq_zero, hk, false_or] at h1 h2 h3
  ext
  · exact h1
  · exact h2
  · exact h3

/-- Two-body motions are similar. -/
theorem twoBody_scale {mu : ℝ} {γ : ℝ → RV ℝ} (hγ : TwoBody mu γ) {c : ℝ} (hc : 0 < c) :
    TwoBody mu fun t => (γ (t / c ^ 3)).scale (c ^ 2) c⁻¹ := by
  have hd : ∀ t, HasDerivAt (fun t : ℝ => t / c ^ 3) (1 / c ^ 3) t := fun t => (hasDerivAt_id t).div_const _
  have hr : ∀ {f : ℝ → ℝ} {g : ℝ → ℝ}, (∀ t, HasDerivAt f (g t) t) → ∀ t,
      HasDerivAt (fun t => c ^ 2 * f (t / c ^ 3)) (c⁻¹ * g (t / c ^ 3)) t := by
    intro f g h t
    refine (((h (t / c ^ 3)).comp t (hd t)).const_mul (c ^ 2)).congr_deriv ?_
    field_simp
  have hv : ∀ {f : ℝ → ℝ} {g : ℝ → ℝ}, (∀ t, HasDerivAt f (-(mu / V3.norm (γ t).r ^ 3) * g t) t) → ∀ t,
      HasDerivAt (fun t => c⁻¹ * f (t / c ^ 3)) (-(mu / V3.norm ((c ^ 2) • (γ (t / c ^ 3)).r) ^ 3) * (c ^ 2 * g (t / c ^ 3))) t := by
    intro f g h t
    refine (((h (t / c ^ 3)).comp t (hd t)).const_mul c⁻¹).congr_deriv ?_
    rw [norm_smul_pos (by positivity), mul_pow]
    field_simp
  exact ⟨hr hγ.rx, hr hγ.ry, hr hγ.rz, hv hγ.vx, hv hγ.vy, hv hγ.vz⟩

theorem kepFlow_scale {x : RV ℝ} {mu : ℝ} (hmu : 0 < mu) (hh : angMom x ≠ 0) {c : ℝ} (hc : 0 < c) (t : ℝ) :
    kepFlow (x.scale (c ^ 2) c⁻¹) mu (c ^ 3 * t) = (kepFlow x mu t).scale (c ^ 2) c⁻¹ := by
  have hT := twoBody_scale (kepFlow_twoBody hmu hh) hc
  have h0 : (kepFlow x mu (0 / c ^ 3)).scale (c ^ 2) c⁻¹ = x.scale (c ^ 2) c⁻¹ := by
    rw [zero_div, kepFlow_zero hmu hh]
  have := twoBody_unique hmu hT (by
    rw [h0]
    rw [angMom_scale]
    exact smul_ne (by positivity) hh) (c ^ 3 * t)
  rw [h0] at this
  rw [← this, mul_div_cancel_left₀ _ (by positivity)]

/-- Differentiability of the motion in the state and the time together. -/
theorem kepFlow_differentiable {x : RV ℝ} {mu : ℝ} (hmu : 0 < mu) (hh : angMom x ≠ 0) (hE : energy x mu ≠ 0) (t : ℝ) :
    DifferentiableAt ℝ (fun z : (Fin 6 → ℝ) × ℝ => pack (kepFlow (unpack z.1) mu z.2)) (pack x, t) := by
  have jac : ∀ {y : RV ℝ}, angMom y ≠ 0 → energy y mu ≠ 0 → ∀ s,
      DifferentiableAt ℝ (fun q => pack (kepFlow (unpack q) mu s)) (pack y) := by
    intro y hy hEy s
    obtain ⟨J, hJ, -⟩ := exists_jac0 hmu hy hEy
    exact differentiableAt_pi.2 fun i => (hJ s i).differentiableAt
  -- the root of the time
  let c : (Fin 6 → ℝ) × ℝ → ℝ := fun z => (z.2 - t + 1) ^ (1 / 3 : ℝ)
  have hc0 : c (pack x, t) = 1 := by simp [c]
  have hc : DifferentiableAt ℝ c (pack x, t) :=
    ((differentiableAt_snd.sub_const t).add_const 1).rpow_const (Or.inl (by simp))
  have dscale : ∀ {a b : (Fin 6 → ℝ) × ℝ → ℝ} {q : (Fin 6 → ℝ) × ℝ → Fin 6 → ℝ} {z}, DifferentiableAt ℝ a z →
      DifferentiableAt ℝ b z → DifferentiableAt ℝ q z → DifferentiableAt ℝ (fun z => scaleQ (a z) (b z) (q z)) z := by
    intro a b q z ha hb hq
    refine differentiableAt_pi.2 fun i => ?_
    have hi := differentiableAt_pi.1 hq
    fin_cases i
    · exact ha.mul (hi 0)
    · exact ha.mul (hi 1)
    · exact ha.mul (hi 2)
    · exact hb.mul (hi 3)
    · exact hb.mul (hi 4)
    · exact hb.mul (hi 5)
  have h1 : DifferentiableAt ℝ (fun z : (Fin 6 → ℝ) × ℝ => pack (kepFlow (unpack z.1) mu (t - 1))) (pack x, t) :=
    DifferentiableAt.comp (pack x, t) (g := fun q => pack (kepFlow (unpack q) mu (t - 1))) (jac hh hE _) differentiableAt_fst
  have hci : DifferentiableAt ℝ (fun z => (c z)⁻¹) (pack x, t) := hc.inv (by rw [hc0]; exact one_ne_zero)
  have h2 : DifferentiableAt ℝ (fun z : (Fin 6 → ℝ) × ℝ =>
      scaleQ ((c z)⁻¹ ^ 2) (c z) (pack (kepFlow (unpack z.1) mu (t - 1)))) (pack x, t) := dscale (hci.pow 2) hc h1
  have h3 : DifferentiableAt ℝ (fun z : (Fin 6 → ℝ) × ℝ => pack (kepFlow (unpack
      (scaleQ ((c z)⁻¹ ^ 2) (c z) (pack (kepFlow (unpack z.1) mu (t - 1))))) mu 1)) (pack x, t) := by
    refine DifferentiableAt.comp (pack x, t) (g := fun q => pack (kepFlow (unpack q) mu 1)) ?_ h2
    simp only [hc0, inv_one, one_pow, scaleQ_one, unpack_pack]
    exact jac (angMom_flow hmu hh _) (by rw [energy_flow hmu hh]; exact hE) 1
  refine (dscale (hc.pow 2) hci h3).congr_of_eventuallyEq ?_
  have e1 : ∀ᶠ z : (Fin 6 → ℝ) × ℝ in 𝓝 (pack x, t), angMom (unpack z.1) ≠ 0 :=
    (continuousAt_fst (p := (pack x, t))).eventually (p := fun q => angMom (unpack q) ≠ 0)
      (eventually_angMom (p := pack x) (by simpa using hh))
  have e2 : ∀ᶠ z : (Fin 6 → ℝ) × ℝ in 𝓝 (pack x, t), 0 < z.2 - t + 1 :=
    continuousAt_const.eventually_lt (g := fun z : (Fin 6 → ℝ) × ℝ => z.2 - t + 1) (f := fun _ => (0 : ℝ)) (by fun_prop) (by simp)
  filter_upwards [e1, e2] with z hz hp
  have hcp : 0 < c z := rpow_pos_of_pos hp _
  have hc3 : c z ^ 3 = z.2 - t + 1 := by
    simp only [c]
    rw [← rpow_natCast, ← rpow_mul hp.le]
    norm_num
  have hy := angMom_flow hmu hz (t - 1)
  set y := kepFlow (unpack z.1) mu (t - 1) with hyd
  rw [← pack_scale, unpack_scaleQ, unpack_pack]
  have hy' : angMom (y.scale ((c z)⁻¹ ^ 2) (c z)) ≠ 0 := by
    rw [angMom_scale]
    exact smul_ne (by positivity) hy
  have hs := kepFlow_scale hmu hy' hcp 1
  have hback : (y.scale ((c z)⁻¹ ^ 2) (c z)).scale (c z ^ 2) (c z)⁻¹ = y := by
    have hne := hcp.ne'
    unfold RV.scale
    apply RV.ext <;> ext <;> simp <;> field_simp
  rw [hback] at hs
  change _ = pack ((kepFlow (y.scale ((c z)⁻¹ ^ 2) (c z)) mu 1).scale (c z ^ 2) (c z)⁻¹)
  rw [← hs, hyd, kepFlow_comp hmu hz, hc3]
  congr 2
  ring

/-- Derivative along a curve of states and times: the state transition matrix applied to the velocity of the states, plus the
equations of motion times the velocity of the times. -/
theorem kepFlow_curve {x : RV ℝ} {mu : ℝ} (hmu : 0 < mu) (hh : angMom x ≠ 0) (hE : energy x mu ≠ 0) {t : ℝ} {M : Mat6}
    (hM : IsJac x mu t M) {X : ℝ → RV ℝ} {T : ℝ → ℝ} {x' : Fin 6 → ℝ} {t' : ℝ} (hX0 : X 0 = x) (hT0 : T 0 = t)
    (hX : ∀ i, HasDerivAt (fun e => pack (X e) i) (x' i) 0) (hT : HasDerivAt T t' 0) {d : Fin 6 → ℝ}
    (hd : ∀ i, HasDerivAt (fun s => pack (kepFlow x mu s) i) (d i) t) (i : Fin 6) :
    HasDerivAt (fun e => pack (kepFlow (X e) mu (T e)) i) ((M.mulVec x') i + t' * d i) 0 := by
  obtain ⟨F, hF⟩ := kepFlow_differentiable hmu hh hE t
  have hXv : HasDerivAt (fun e => pack (X e)) x' 0 := hasDerivAt_pi.2 hX
  have hz : HasDerivAt (fun e => ((pack (X e), T e) : (Fin 6 → ℝ) × ℝ)) (x', t') 0 := hXv.prodMk hT
  have hF' : HasFDerivAt (fun z : (Fin 6 → ℝ) × ℝ => pack (kepFlow (unpack z.1) mu z.2)) F (pack (X 0), T 0) := by
    rw [hX0, hT0]; exact hF
  have h1 := hasDerivAt_pi.1 (hF'.comp_hasDerivAt 0 hz) i
  refine h1.congr_deriv ?_
  have hsplit : F (x', t') = F (x', 0) + F (0, t') := by rw [← map_add]; simp
  rw [hsplit, Pi.add_apply]
  congr 1
  · have hq : HasFDerivAt (fun q : Fin 6 → ℝ => (q, t)) (ContinuousLinearMap.inl ℝ (Fin 6 → ℝ) ℝ) (pack x) := by
      have := (hasFDerivAt_id (𝕜 := ℝ) (pack x)).prodMk (hasFDerivAt_const t (pack x))
      exact this
    have h2 := hasFDerivAt_pi'.1 (hF.comp (pack x) hq) i
    have h3 := HasFDerivAt.unique h2 (hM i)
    have := congrArg (fun L => L x') h3
    simp only [ContinuousLinearMap.comp_apply, ContinuousLinearMap.inl_apply, ContinuousLinearMap.proj_apply, rowL_apply] at this
    rw [this]
    rfl
  · have hq : HasDerivAt (fun s : ℝ => ((pack x, s) : (Fin 6 → ℝ) × ℝ)) (0, 1) t := (hasDerivAt_const t _).prodMk (hasDerivAt_id t)
    have h2 := hasDerivAt_pi.1 (hF.comp_hasDerivAt t hq) i
    have h3 := h2.unique (hd i)
    have : F (0, t') = t' • F (0, 1) := by rw [← map_smul]; simp
    rw [this, Pi.smul_apply, h3, smul_eq_mul]

end Kep3
