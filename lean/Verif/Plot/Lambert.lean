import Verif.Plot.Theta
import Verif.Lambert.Props63
import Verif.Planet.Props10

/-!
# C73: the arc drawn for a solution of Lambert's problem

`add_lambert`, pykep/plot/_lambert.py:4-79, exact real arithmetic; the points given to matplotlib, before the division by the
units.
-/

namespace Kep3
open Real V3

namespace Plot

/-- `numpy.linspace`. For one point numpy gives the first one, and so does this (the step is not used). -/
noncomputable def linspace (a b : ℝ) (N : ℕ) : List ℝ := (List.range N).map fun i : ℕ => a + i * ((b - a) / (N - 1))

/-- The angle between the positions, counterclockwise seen from the positive z axis, pykep/plot/_lambert.py:44-62. -/
noncomputable def ccwAngle (r0 r1 : V3 ℝ) : ℝ :=
  let c := dot r0 r1 / (norm r0 * norm r1)
  let theta := arccos (min 1 (max (-1) c))
  if (cross r0 r1).z < 0 then 2 * π - theta else theta

/-- Indexing a list in Python: negative indices count from the end. -/
def pyIndex {α : Type} (l : List α) (i : ℤ) : Res α :=
  let k := if i < 0 then i + l.length else i
  if k < 0 then .err .index else match l[k.toNat]? with
    | some a => .ok a
    | none => .err .index

/-- `add_lambert`, pykep/plot/_lambert.py:4-79. A NaN velocity gives NaN points, without an error: `none`. -/
noncomputable def addLambert (L : Lambert) (N : ℕ) (sol : ℤ) : Res (Option (List (V3 ℝ))) :=
  if sol > L.Nmax * 2 then .err .value
  else do
    let v0 ← pyIndex L.v0 sol
    let grid := if sol = 0 then linspace 0 (ccwAngle L.r0 L.r1) N else linspace 0 (2 * π) N
    return v0.map fun v0 => grid.map fun θ => (thetaState ⟨L.r0, v0⟩ L.mu θ).r

/-! ## The angle of the transfer -/

section
variable {mu : ℝ} (hmu : 0 < mu) {γ : ℝ → RV ℝ} (hγ : TwoBody mu γ) (hh : angMom (γ 0) ≠ 0)
include hmu hγ hh

theorem cross_turned {Φ : ℝ → ℝ} (hΦ : Turned γ Φ) (t : ℝ) :
    (cross (γ 0).r (γ t).r).z = norm (γ t).r * norm (γ 0).r / norm (angMom (γ 0)) * sin (Φ t) * (angMom (γ 0)).z := by
  obtain ⟨h1, h2⟩ := turned_cos_sin hmu hγ hh hΦ t
  have hf := pos_frame hh (twoBody_angMom hmu hγ t) h1 h2
  have hR := norm_pos (r_ne_of_h hh)
  have hH := norm_pos hh
  have p1 : dot (γ 0).r (angMom (γ 0)) = 0 := dot_cross_self_left _ _
  have hc : cross (γ 0).r (cross (angMom (γ 0)) (γ 0).r) = dot (γ 0).r (γ 0).r • angMom (γ 0) - dot (γ 0).r (angMom (γ 0)) • (γ 0).r := by
    ext <;> simp [dot] <;> ring
  rw [p1, ← norm_mul_self] at hc
  have hz : ∀ a b : ℝ, ∀ r w : V3 ℝ, (cross r (a • r + b • w)).z = b * (cross r w).z := by
    intro a b r w; simp; ring
  conv_lhs => rw [hf]
  rw [hz, hc]
  simp only [smul_z, sub_z]
  field_simp
  ring

theorem turned_pos {Φ : ℝ → ℝ} (hΦ : Turned γ Φ) : StrictMono Φ ∧ Continuous Φ := by
  refine ⟨strictMono_of_hasDerivAt_pos hΦ.deriv fun t => ?_, continuous_iff_continuousAt.2 fun t => (hΦ.deriv t).continuousAt⟩
  have := norm_pos hh
  have := twoBody_norm_pos hmu hγ hh t
  positivity

/-- The angle computed, for a transfer of less than a turn: the angle turned by if the motion is counterclockwise, and what is
missing to a turn if it is clockwise. -/
theorem ccwAngle_eq {Φ : ℝ → ℝ} (hΦ : Turned γ Φ) {t : ℝ} (ht : 0 < t) (hlt : Φ t < 2 * π)
    (hz : (cross (γ 0).r (γ t).r).z ≠ 0) :
    ccwAngle (γ 0).r (γ t).r = if (angMom (γ 0)).z < 0 then 2 * π - Φ t else Φ t := by
  have h0 : 0 < Φ t := by rw [← hΦ.zero]; exact (turned_pos hmu hγ hh hΦ).1 ht
  have hcz := cross_turned hmu hγ hh hΦ t
  obtain ⟨hc, -⟩ := turned_cos_sin hmu hγ hh hΦ t
  have hR := twoBody_norm_pos hmu hγ hh
  have hk : 0 < norm (γ t).r * norm (γ 0).r / norm (angMom (γ 0)) := by
    have := hR t; have := hR 0; have := norm_pos hh; positivity
  have hcos : dot (γ 0).r (γ t).r / (norm (γ 0).r * norm (γ t).r) = cos (Φ t) := by
    rw [hc]; have := hR t; have := hR 0; field_simp
  have hclip : min 1 (max (-1) (cos (Φ t))) = cos (Φ t) := by
    rw [max_eq_right (neg_one_le_cos _), min_eq_right (cos_le_one _)]
  unfold ccwAngle
  simp only
  rw [hcos, hclip, hcz]
  generalize norm (γ t).r * norm (γ 0).r / norm (angMom (γ 0)) = k at *
  generalize Φ t = φ at *
  generalize (angMom (γ 0)).z = hz' at *
  rw [hcz] at hz
  have hs : sin φ ≠ 0 := fun h => hz (by rw [h]; ring)
  have hhz : hz' ≠ 0 := fun h => hz (by rw [h]; ring)
  have hsgn : (0 < sin φ ∧ φ < π) ∨ (sin φ < 0 ∧ π < φ) := by
    rcases lt_trichotomy φ π with h | h | h
    · exact .inl ⟨sin_pos_of_pos_of_lt_pi h0 h, h⟩
    · exact absurd (by rw [h, sin_pi]) hs
    · refine .inr ⟨?_, h⟩
      have := sin_pos_of_pos_of_lt_pi (x := φ - π) (by linarith) (by linarith)
      rw [sin_sub_pi] at this; linarith
  have harc : (φ < π → arccos (cos φ) = φ) ∧ (π < φ → arccos (cos φ) = 2 * π - φ) := by
    refine ⟨fun h => arccos_cos h0.le h.le, fun h => ?_⟩
    rw [← cos_two_pi_sub, arccos_cos (by linarith) (by linarith)]
  rcases lt_or_gt_of_ne hhz with h1 | h1
  · rw [if_pos h1]
    rcases hsgn with ⟨h2, h3⟩ | ⟨h2, h3⟩
    · rw [if_pos (mul_neg_of_pos_of_neg (mul_pos hk h2) h1), harc.1 h3]
    · rw [if_neg (not_lt.2 (mul_pos_of_neg_of_neg (mul_neg_of_pos_of_neg hk h2) h1).le), harc.2 h3]
  · rw [if_neg (not_lt.2 h1.le)]
    rcases hsgn with ⟨h2, h3⟩ | ⟨h2, h3⟩
    · rw [if_neg (not_lt.2 (mul_pos (mul_pos hk h2) h1).le), harc.1 h3]
    · rw [if_pos (mul_neg_of_neg_of_pos (mul_neg_of_pos_of_neg hk h2) h1), harc.2 h3]; ring

theorem theta_turn : thetaState (γ 0) mu (2 * π) = γ 0 := by
  unfold thetaState thetaCS
  simp only [cos_two_pi, sin_two_pi]
  have : ∀ x : RV ℝ, (⟨(1 : ℝ) • x.r + (0 : ℝ) • x.v, (0 : ℝ) • x.r + (1 : ℝ) • x.v⟩ : RV ℝ) = x := by
    rintro ⟨⟨a, b, c⟩, ⟨d, e, f⟩⟩; congr <;> ext <;> simp
  simpa using this (γ 0)

/-- A motion that is not bound does not make a full turn. -/
theorem no_turn {Φ : ℝ → ℝ} (hΦ : Turned γ Φ) (hE : 0 ≤ energy (γ 0) mu) {t : ℝ} (ht : 0 ≤ t) : Φ t < 2 * π := by
  by_contra hc
  push Not at hc
  obtain ⟨hm, hcont⟩ := turned_pos hmu hγ hh hΦ
  have hall : ∀ φ, 0 ≤ φ → φ ≤ 2 * π → 0 < den (γ 0) mu (cos φ) (sin φ) := by
    intro φ h1 h2
    obtain ⟨s, -, hs⟩ := intermediate_value_Icc ht hcont.continuousOn
      (show φ ∈ Set.Icc (Φ 0) (Φ t) by rw [hΦ.zero]; exact ⟨h1, h2.trans hc⟩)
    have h3 := den_flow hmu hγ hh hΦ s
    rw [hs] at h3
    have h4 := twoBody_norm_pos hmu hγ hh s
    have h5 : 0 < norm (angMom (γ 0)) ^ 2 / mu * norm (γ 0).r := by
      have := norm_pos hh; have := twoBody_norm_pos hmu hγ hh 0; positivity
    rw [← h3] at h5
    exact pos_of_mul_pos_left h5 h4.le
  have hR := twoBody_norm_pos hmu hγ hh 0
  have hH := norm_pos hh
  simp only [den_eq hmu hh] at hall
  have hl := lagrange (γ 0).r (γ 0).v
  have hid : (norm (angMom (γ 0)) ^ 2 / mu - norm (γ 0).r) ^ 2 + (norm (angMom (γ 0)) * dot (γ 0).r (γ 0).v / mu) ^ 2
      - norm (γ 0).r ^ 2 = 2 * energy (γ 0) mu * norm (γ 0).r ^ 2 * norm (angMom (γ 0)) ^ 2 / mu ^ 2 := by
    rw [show cross (γ 0).r (γ 0).v = angMom (γ 0) from rfl, ← norm_sq, ← norm_sq (γ 0).r] at hl
    unfold energy
    generalize norm (angMom (γ 0)) = H at *
    generalize norm (γ 0).r = R at *
    field_simp
    linear_combination H ^ 2 * hl
  have hge : 0 ≤ 2 * energy (γ 0) mu * norm (γ 0).r ^ 2 * norm (angMom (γ 0)) ^ 2 / mu ^ 2 := by positivity
  generalize norm (angMom (γ 0)) ^ 2 / mu - norm (γ 0).r = A at *
  generalize norm (angMom (γ 0)) * dot (γ 0).r (γ 0).v / mu = B at *
  generalize norm (γ 0).r = R at *
  have hAB : R ^ 2 ≤ A ^ 2 + B ^ 2 := by linarith
  have hrho : R ≤ √(A ^ 2 + B ^ 2) := le_sqrt_of_sq_le hAB
  have hrp : 0 < √(A ^ 2 + B ^ 2) := lt_of_lt_of_le hR hrho
  have hrs := sq_sqrt (show 0 ≤ A ^ 2 + B ^ 2 by positivity)
  generalize √(A ^ 2 + B ^ 2) = ρ at *
  obtain ⟨φ, hφ1, hφ2, hcφ, hsφ⟩ : ∃ φ, 0 ≤ φ ∧ φ ≤ 2 * π ∧ cos φ = -A / ρ ∧ sin φ = B / ρ := by
    have h1 : -1 ≤ -A / ρ := by
      rw [le_div_iff₀ hrp]; linarith [(abs_le.1 (abs_le_of_sq_le_sq (a := A) (b := ρ) (by nlinarith) hrp.le)).2]
    have h2 : -A / ρ ≤ 1 := by
      rw [div_le_iff₀ hrp]; linarith [(abs_le.1 (abs_le_of_sq_le_sq (a := A) (b := ρ) (by nlinarith) hrp.le)).1]
    have hss : 1 - (-A / ρ) ^ 2 = (B / ρ) ^ 2 := by field_simp; linarith
    by_cases hB : 0 ≤ B
    · refine ⟨arccos (-A / ρ), arccos_nonneg _, by linarith [arccos_le_pi (-A / ρ), pi_pos], cos_arccos h1 h2, ?_⟩
      rw [sin_arccos, hss, sqrt_sq (by positivity)]
    · refine ⟨2 * π - arccos (-A / ρ), by linarith [arccos_le_pi (-A / ρ), pi_pos], by linarith [arccos_nonneg (-A / ρ)], ?_, ?_⟩
      · rw [cos_two_pi_sub, cos_arccos h1 h2]
      · rw [sin_two_pi_sub, sin_arccos, hss, sqrt_sq_eq_abs, abs_of_neg (div_neg_of_neg_of_pos (not_le.1 hB) hrp)]; ring
  have := hall φ hφ1 hφ2
  rw [hcφ, hsφ] at this
  have e : R + A * (-A / ρ) - B * (B / ρ) = R - ρ := by field_simp; linarith
  linarith

/-- A bound motion makes full turns: the first one ends with the first return. -/
theorem bound_turn {Φ : ℝ → ℝ} (hΦ : Turned γ Φ) (hE : energy (γ 0) mu < 0) :
    ∃ T, 0 < T ∧ Φ T = 2 * π ∧ T = 2 * π * √((-mu / (2 * energy (γ 0) mu)) ^ 3 / mu) ∧ γ T = γ 0 ∧
      ∀ s, 0 < s → s < T → γ s ≠ γ 0 := by
  obtain ⟨hm, hcont⟩ := turned_pos hmu hγ hh hΦ
  have hR := twoBody_norm_pos hmu hγ hh 0
  have hH := norm_pos hh
  obtain ⟨T, hT, hper, hp, hfirst⟩ := C10_returns hmu hγ hh hE
  have hTeq : T = 2 * π * √((-mu / (2 * energy (γ 0) mu)) ^ 3 / mu) := by
    obtain ⟨a, T', h1, -, h2, h3, -⟩ := (C10_kepler (γ 0) hmu (r_ne_of_h hh)).1 hE
    rw [hper 0, Option.some.injEq] at h2
    rw [h2, h3, h1]; rfl
  have hf : ∀ s, 0 < s → s < T → γ s ≠ γ 0 := fun s h1 h2 h => hfirst 0 s h1 h2 (by rw [zero_add]; exact h)
  have hret : γ T = γ 0 := by have := hp 0; rwa [zero_add] at this
  refine ⟨T, hT, ?_, hTeq, hret, hf⟩
  obtain ⟨hc, -⟩ := turned_cos_sin hmu hγ hh hΦ T
  rw [hret] at hc
  have hc1 : cos (Φ T) = 1 := by
    have h1 : dot (γ 0).r (γ 0).r = norm (γ 0).r * norm (γ 0).r := (norm_mul_self _).symm
    rw [h1] at hc
    have : norm (γ 0).r * norm (γ 0).r ≠ 0 := by positivity
    exact mul_left_cancel₀ this (by linarith)
  have h0 : 0 < Φ T := by rw [← hΦ.zero]; exact hm hT
  have hge : 2 * π ≤ Φ T := by
    by_contra hlt
    push Not at hlt
    have := (cos_eq_one_iff_of_lt_of_lt (by linarith [pi_pos]) hlt).1 hc1
    linarith
  refine le_antisymm ?_ hge
  by_contra hgt
  push Not at hgt
  obtain ⟨s, ⟨hs1, hs2⟩, hs⟩ := intermediate_value_Icc hT.le hcont.continuousOn
    (show 2 * π ∈ Set.Icc (Φ 0) (Φ T) by rw [hΦ.zero]; exact ⟨by positivity, hge⟩)
  have hs0 : 0 < s := by
    rcases hs1.lt_or_eq with h | h
    · exact h
    · rw [← h, hΦ.zero] at hs; linarith [pi_pos]
  have hsT : s < T := hs2.lt_of_ne fun h => by rw [h] at hs; linarith
  refine hf s hs0 hsT ?_
  rw [← C72_flow hmu hγ hh hΦ s, hs]
  exact theta_turn hmu hγ hh

end

/-! ## What is drawn -/

/-- The points are the positions at increasing times of the motion, the first at its start and the last at time `t1`. -/
def Drawn (γ : ℝ → RV ℝ) (t1 : ℝ) (N : ℕ) (pts : List (V3 ℝ)) : Prop :=
  ∃ times : ℕ → ℝ, times 0 = 0 ∧ times (N - 1) = t1 ∧ (∀ i j, i < j → j < N → times i < times j) ∧
    pts = (List.range N).map fun i => (γ (times i)).r

/-- The points for the angles of a grid. -/
theorem drawn_grid {mu : ℝ} (hmu : 0 < mu) {γ : ℝ → RV ℝ} (hγ : TwoBody mu γ) (hh : angMom (γ 0) ≠ 0) {Φ : ℝ → ℝ}
    (hΦ : Turned γ Φ) {t1 : ℝ} (ht : 0 < t1) {N : ℕ} (hN : 2 ≤ N) :
    Drawn γ t1 N ((linspace 0 (Φ t1) N).map fun θ => (thetaState (γ 0) mu θ).r) := by
  obtain ⟨hm, hcont⟩ := turned_pos hmu hγ hh hΦ
  have h0 : 0 < Φ t1 := by rw [← hΦ.zero]; exact hm ht
  have hN1 : (0 : ℝ) < N - 1 := by
    have : (2 : ℝ) ≤ N := by exact_mod_cast hN
    linarith
  have hex : ∀ i : ℕ, ∃ s, i < N → Φ s = i * (Φ t1 / (N - 1)) := by
    intro i
    by_cases hi : i < N
    · have hi' : (i : ℝ) ≤ N - 1 := by
        have : (i : ℝ) + 1 ≤ N := by exact_mod_cast hi
        linarith
      obtain ⟨s, -, hs⟩ := intermediate_value_Icc ht.le hcont.continuousOn
        (show (i : ℝ) * (Φ t1 / (N - 1)) ∈ Set.Icc (Φ 0) (Φ t1) by
          rw [hΦ.zero]
          refine ⟨by positivity, ?_⟩
          rw [mul_div_assoc', div_le_iff₀ hN1]
          nlinarith)
      exact ⟨s, fun _ => hs⟩
    · exact ⟨0, fun h => absurd h hi⟩
  choose τ hτ using hex
  refine ⟨τ, ?_, ?_, ?_, ?_⟩
  · apply hm.injective
    rw [hτ 0 (by omega), hΦ.zero]; simp
  · apply hm.injective
    rw [hτ (N - 1) (by omega), Nat.cast_sub (by omega), Nat.cast_one]
    field_simp
  · intro i j hij hj
    rw [← hm.lt_iff_lt, hτ i (by omega), hτ j hj]
    have : (i : ℝ) < j := by exact_mod_cast hij
    have : 0 < Φ t1 / (N - 1) := by positivity
    nlinarith
  · unfold linspace
    rw [List.map_map]
    apply List.map_congr_left
    intro i hi
    simp only [Function.comp, sub_zero, zero_add]
    rw [← hτ i (List.mem_range.1 hi), C72_flow hmu hγ hh hΦ]

theorem pyIndex_nat {α : Type} {l : List α} {k : ℕ} {a : α} (h : l[k]? = some a) : pyIndex l k = .ok a := by
  unfold pyIndex
  simp only
  rw [if_neg (by omega), if_neg (by omega), Int.toNat_natCast, h]

section
variable {L : Lambert} {cw : Bool} {K : ℕ} {v0 v1 : V3 ℝ} (hmu : 0 < L.mu) (htof : 0 < L.tof)
  (hT : Lambert.Transfer L.r0 L.r1 L.tof L.mu cw K v0 v1)
include hmu htof hT

theorem transfer_ne : angMom (⟨L.r0, v0⟩ : RV ℝ) ≠ 0 := by
  intro h
  have h1 := hT.1
  rw [show cross L.r0 v0 = 0 from h] at h1
  cases cw <;> simp at h1

omit htof in
theorem transfer_motion {γ : ℝ → RV ℝ} (hγ : TwoBody L.mu γ) (h0 : γ 0 = ⟨L.r0, v0⟩) : γ L.tof = ⟨L.r1, v1⟩ := by
  obtain ⟨hs, ⟨γ', g1, g2, g3⟩, -⟩ := hT
  have hne : angMom (⟨L.r0, v0⟩ : RV ℝ) ≠ 0 := by
    intro h
    rw [show cross L.r0 v0 = 0 from h] at hs
    cases cw <;> simp at hs
  rw [twoBody_unique hmu hγ (by rw [h0]; exact hne) L.tof, ← g3,
    twoBody_unique hmu g1 (by rw [g2]; exact hne) L.tof, h0, g2]

/-- A transfer without complete revolutions turns by less than a turn. -/
theorem transfer_angle (hK : K = 0) {γ : ℝ → RV ℝ} (hγ : TwoBody L.mu γ) (h0 : γ 0 = ⟨L.r0, v0⟩) {Φ : ℝ → ℝ}
    (hΦ : Turned γ Φ) : Φ L.tof < 2 * π := by
  have hh : angMom (γ 0) ≠ 0 := by rw [h0]; exact transfer_ne hmu htof hT
  by_cases hE : 0 ≤ energy (γ 0) L.mu
  · exact no_turn hmu hγ hh hΦ hE htof.le
  · push Not at hE
    obtain ⟨T, -, h1, h2, -⟩ := bound_turn hmu hγ hh hΦ hE
    have ha : 0 < -L.mu / (2 * energy (γ 0) L.mu) := div_pos_of_neg_of_neg (by linarith) (by linarith)
    have := (hT.2.2.1 _ ha (by rw [← h0]; field_simp [hE.ne])).2
    rw [hK, ← h2, Nat.cast_zero, zero_add, one_mul] at this
    rw [← h1]
    exact (turned_pos hmu hγ hh hΦ).1 this

end

/-- C73. The arc drawn for the counterclockwise transfer without complete revolutions starts at the first position, ends at the
second one and follows the transfer. -/
theorem C73_direct {L : Lambert} {v0 v1 : V3 ℝ} (hmu : 0 < L.mu) (htof : 0 < L.tof)
    (hT : Lambert.Transfer L.r0 L.r1 L.tof L.mu false 0 v0 v1) (hv : L.v0[0]? = some (some v0)) (hz : (cross L.r0 L.r1).z ≠ 0)
    {N : ℕ} (hN : 2 ≤ N) : ∃ pts, addLambert L N 0 = .ok (some pts) ∧ pts.head? = some L.r0 ∧ pts.getLast? = some L.r1 ∧
      ∀ γ, TwoBody L.mu γ → γ 0 = ⟨L.r0, v0⟩ → Drawn γ L.tof N pts := by
  refine ⟨(linspace 0 (ccwAngle L.r0 L.r1) N).map fun θ => (thetaState ⟨L.r0, v0⟩ L.mu θ).r, ?_, ?_⟩
  · unfold addLambert
    rw [if_neg (by omega), show pyIndex L.v0 0 = .ok (some v0) from pyIndex_nat hv]
    rfl
  · have key : ∀ γ, TwoBody L.mu γ → γ 0 = ⟨L.r0, v0⟩ → Drawn γ L.tof N
        ((linspace 0 (ccwAngle L.r0 L.r1) N).map fun θ => (thetaState ⟨L.r0, v0⟩ L.mu θ).r) := by
      intro γ hγ h0
      have hh : angMom (γ 0) ≠ 0 := by rw [h0]; exact transfer_ne hmu htof hT
      obtain ⟨Φ, hΦ⟩ := turned_exists hmu hγ hh
      have h1 := transfer_motion hmu hT hγ h0
      have ha := ccwAngle_eq hmu hγ hh hΦ htof (transfer_angle hmu htof hT rfl hγ h0 hΦ) (by rw [h0, h1]; exact hz)
      have hs : ¬ (angMom (⟨L.r0, v0⟩ : RV ℝ)).z < 0 := not_lt.2 (le_of_lt hT.1)
      rw [h0, h1, if_neg hs] at ha
      change ccwAngle L.r0 L.r1 = _ at ha
      rw [ha, ← h0]
      exact drawn_grid hmu hγ hh hΦ htof hN
    obtain ⟨γ, hγ, g0, g1⟩ := hT.2.1
    obtain ⟨τ, t0, t1, -, hp⟩ := key γ hγ g0
    refine ⟨?_, ?_, key⟩
    · rw [hp, List.head?_map, List.head?_range, if_neg (by omega)]; simp [t0, g0]
    · rw [hp, List.getLast?_map, List.getLast?_range, if_neg (by omega)]; simp [t1, g1]

/-- C73. For a transfer with complete revolutions the whole orbit is drawn, once. -/
theorem C73_revolutions {L : Lambert} {v0 v1 : V3 ℝ} {cw : Bool} (hmu : 0 < L.mu) (htof : 0 < L.tof) {k K : ℕ} (hk : 1 ≤ k)
    (hk2 : k ≤ 2 * L.Nmax) (hK : 1 ≤ K) (hT : Lambert.Transfer L.r0 L.r1 L.tof L.mu cw K v0 v1) (hv : L.v0[k]? = some (some v0))
    {N : ℕ} (hN : 2 ≤ N) : ∃ pts, addLambert L N k = .ok (some pts) ∧ pts.head? = some L.r0 ∧ pts.getLast? = some L.r0 ∧
      ∀ γ, TwoBody L.mu γ → γ 0 = ⟨L.r0, v0⟩ → ∃ T, 0 < T ∧ T < L.tof ∧ γ T = γ 0 ∧ (∀ s, 0 < s → s < T → γ s ≠ γ 0) ∧
        Drawn γ T N pts := by
  have hE : energy (⟨L.r0, v0⟩ : RV ℝ) L.mu < 0 := by
    by_contra h
    push Not at h
    have := hT.2.2.2 h
    omega
  refine ⟨(linspace 0 (2 * π) N).map fun θ => (thetaState ⟨L.r0, v0⟩ L.mu θ).r, ?_, ?_⟩
  · unfold addLambert
    rw [if_neg (by omega), pyIndex_nat hv]
    simp only [Res.ok_bind]
    rw [if_neg (by omega)]
    rfl
  · have key : ∀ γ, TwoBody L.mu γ → γ 0 = ⟨L.r0, v0⟩ → ∃ T, 0 < T ∧ T < L.tof ∧ γ T = γ 0 ∧
        (∀ s, 0 < s → s < T → γ s ≠ γ 0) ∧
        Drawn γ T N ((linspace 0 (2 * π) N).map fun θ => (thetaState ⟨L.r0, v0⟩ L.mu θ).r) := by
      intro γ hγ h0
      have hh : angMom (γ 0) ≠ 0 := by rw [h0]; exact transfer_ne hmu htof hT
      obtain ⟨Φ, hΦ⟩ := turned_exists hmu hγ hh
      obtain ⟨T, t0, t1, t2, t3, t4⟩ := bound_turn hmu hγ hh hΦ (by rw [h0]; exact hE)
      refine ⟨T, t0, ?_, t3, t4, ?_⟩
      · have ha : 0 < -L.mu / (2 * energy (γ 0) L.mu) :=
          div_pos_of_neg_of_neg (by linarith) (by rw [h0]; linarith)
        have := (hT.2.2.1 _ ha (by rw [← h0]; have : energy (γ 0) L.mu ≠ 0 := by rw [h0]; exact hE.ne
                                   field_simp)).1
        rw [← t2] at this
        have hK' : (1 : ℝ) ≤ K := by exact_mod_cast hK
        nlinarith
      · rw [← t1, ← h0]
        exact drawn_grid hmu hγ hh hΦ t0 hN
    obtain ⟨γ, hγ, g0, -⟩ := hT.2.1
    obtain ⟨T, -, -, h3, -, τ, t0, t1, -, hp⟩ := key γ hγ g0
    refine ⟨?_, ?_, key⟩
    · rw [hp, List.head?_map, List.head?_range, if_neg (by omega)]; simp [t0, g0]
    · rw [hp, List.getLast?_map, List.getLast?_range, if_neg (by omega)]; simp [t1, h3, g0]

/-- C73, negation. The arc drawn for a clockwise transfer without complete revolutions does not end at the second position. -/
theorem C73_clockwise {L : Lambert} {v0 v1 : V3 ℝ} (hmu : 0 < L.mu) (htof : 0 < L.tof)
    (hT : Lambert.Transfer L.r0 L.r1 L.tof L.mu true 0 v0 v1) (hv : L.v0[0]? = some (some v0)) (hz : (cross L.r0 L.r1).z ≠ 0)
    (hd : den ⟨L.r0, v0⟩ L.mu (cos (ccwAngle L.r0 L.r1)) (sin (ccwAngle L.r0 L.r1)) ≠ 0)
    {N : ℕ} (hN : 2 ≤ N) : ∃ pts r, addLambert L N 0 = .ok (some pts) ∧ pts.head? = some L.r0 ∧ pts.getLast? = some r ∧
      r ≠ L.r1 := by
  refine ⟨(linspace 0 (ccwAngle L.r0 L.r1) N).map fun θ => (thetaState ⟨L.r0, v0⟩ L.mu θ).r,
    (thetaState ⟨L.r0, v0⟩ L.mu (ccwAngle L.r0 L.r1)).r, ?_, ?_, ?_, ?_⟩
  · unfold addLambert
    rw [if_neg (by omega), show pyIndex L.v0 0 = .ok (some v0) from pyIndex_nat hv]
    rfl
  · have e : (thetaState ⟨L.r0, v0⟩ L.mu 0).r = L.r0 := by
      unfold thetaState thetaCS
      ext <;> simp
    unfold linspace
    rw [List.map_map, List.head?_map, List.head?_range, if_neg (by omega)]
    simp [e]
  · have hN1 : (N : ℝ) - 1 ≠ 0 := by
      have : (2 : ℝ) ≤ N := by exact_mod_cast hN
      intro h; linarith
    unfold linspace
    rw [List.map_map, List.getLast?_map, List.getLast?_range, if_neg (by omega)]
    simp only [Option.map_some, Function.comp, Option.some.injEq]
    rw [Nat.cast_sub (by omega), Nat.cast_one, sub_zero, zero_add, mul_div_cancel₀ _ hN1]
  · intro he
    obtain ⟨γ, hγ, g0, g1⟩ := hT.2.1
    have hh : angMom (γ 0) ≠ 0 := by rw [g0]; exact transfer_ne hmu htof hT
    obtain ⟨Φ, hΦ⟩ := turned_exists hmu hγ hh
    have ha := ccwAngle_eq hmu hγ hh hΦ htof (transfer_angle hmu htof hT rfl hγ g0 hΦ) (by rw [g0, g1]; exact hz)
    have hs : (angMom (⟨L.r0, v0⟩ : RV ℝ)).z < 0 := hT.1
    rw [g0, g1, if_pos hs] at ha
    change ccwAngle L.r0 L.r1 = _ at ha
    obtain ⟨p1, p2⟩ := theta_pos hmu hh (C := cos (ccwAngle L.r0 L.r1)) (S := sin (ccwAngle L.r0 L.r1))
      (by rw [g0]; exact hd)
    have hR := twoBody_norm_pos hmu hγ hh
    have hH := norm_pos hh
    obtain ⟨q1, q2⟩ := turned_cos_sin hmu hγ hh hΦ L.tof
    have hre : (thetaCS (γ 0) L.mu (cos (ccwAngle L.r0 L.r1)) (sin (ccwAngle L.r0 L.r1))).r = (γ L.tof).r := by
      rw [g0, g1]; exact he
    rw [hre] at p1 p2
    have hcz := cross_turned hmu hγ hh hΦ L.tof
    rw [g0, g1] at hcz
    rw [hcz] at hz
    have hs : sin (Φ L.tof) ≠ 0 := fun h => hz (by rw [h]; ring)
    have hR0 := hR 0
    have hR1 := hR L.tof
    have hdf := den_flow hmu hγ hh hΦ L.tof
    rw [← g0] at hd
    rw [ha, cos_two_pi_sub, sin_two_pi_sub] at p1 p2 hd
    rw [den_eq hmu hh] at hdf hd p1 p2
    generalize norm (γ 0).r = R0 at *
    generalize norm (γ L.tof).r = R1 at *
    generalize norm (angMom (γ 0)) = H at *
    generalize H * dot (γ 0).r (γ 0).v / L.mu = B at *
    generalize H ^ 2 / L.mu = q at *
    generalize cos (Φ L.tof) = C at *
    generalize sin (Φ L.tof) = S at *
    generalize hk : q * R0 / (R0 + (q - R0) * C - B * -S) = k at p1 p2
    have c1 : R1 * C = k * C := mul_left_cancel₀ hR0.ne' (by linarith)
    have c2 : R1 * S = -(k * S) := mul_left_cancel₀ (mul_pos hH hR0).ne' (by linarith)
    have c3 : R1 = -k := mul_right_cancel₀ hs (by linarith)
    have c4 : C = 0 := by
      have : 2 * R1 * C = 0 := by rw [show k = -R1 by linarith] at c1; linarith
      exact (mul_eq_zero.1 this).resolve_left (by positivity)
    rw [div_eq_iff hd, c4, show k = -R1 by linarith] at hk
    rw [c4] at hdf
    have : R1 * (2 * R0) = 0 := by linarith
    have : 0 < R1 * (2 * R0) := by positivity
    linarith

/-- C73. What is refused. -/
theorem C73_errors (L : Lambert) (N : ℕ) (sol : ℤ) (hl : L.v0.length = 2 * L.Nmax + 1) :
    (addLambert L N sol = .err .value ↔ 2 * L.Nmax < sol) ∧
    (addLambert L N sol = .err .index ↔ sol < -(2 * L.Nmax + 1 : ℤ)) ∧
    (-(2 * L.Nmax + 1 : ℤ) ≤ sol → sol ≤ 2 * L.Nmax → ∃ pts, addLambert L N sol = .ok pts) := by
  unfold addLambert pyIndex
  simp only [hl]
  have hlt : ∀ k : ℕ, k < 2 * L.Nmax + 1 → ∃ a, L.v0[k]? = some a := fun k hk =>
    ⟨L.v0[k]'(by omega), List.getElem?_eq_getElem (by omega)⟩
  by_cases h1 : sol > L.Nmax * 2
  · rw [if_pos h1]
    refine ⟨by simp; omega, by simp; omega, by omega⟩
  · rw [if_neg h1]
    by_cases h2 : sol < 0
    · rw [if_pos h2]
      by_cases h3 : sol + ((2 * L.Nmax + 1 : ℕ) : ℤ) < 0
      · rw [if_pos h3]
        simp only [Res.err_bind]
        refine ⟨by simp; omega, by simp; push_cast at h3; omega, by push_cast at h3; omega⟩
      · rw [if_neg h3]
        obtain ⟨a, ha⟩ := hlt (sol + ((2 * L.Nmax + 1 : ℕ) : ℤ)).toNat (by omega)
        rw [ha]
        simp only [Res.ok_bind, Res.pure_eq]
        refine ⟨by simp; omega, by simp; push_cast at h3; omega, fun _ _ => ⟨_, rfl⟩⟩
    · rw [if_neg h2, if_neg h2]
      obtain ⟨a, ha⟩ := hlt sol.toNat (by omega)
      rw [ha]
      simp only [Res.ok_bind, Res.pure_eq]
      refine ⟨by simp; omega, by simp; omega, fun _ _ => ⟨_, rfl⟩⟩

/-- C73. The same from the solver: for a counterclockwise problem whose first iteration variable solves the time equation. -/
theorem C73_solver {j : Lambert.Junk} {r0 r1 : V3 ℝ} {tof mu : ℝ} {m : ℕ} {L : Lambert}
    (h : Lambert.make j r0 r1 tof mu false m = .ok L) (hz : (cross r0 r1).z ≠ 0) {x : ℝ} (hx : L.x[0]? = some (some x))
    (h1 : -1 < x) (hd : 0.01 ≤ |x - 1|) (hroot : Lambert.x2tof L.lam x 0 = some (Lambert.nonDim r0 r1 tof mu)) {N : ℕ}
    (hN : 2 ≤ N) : ∃ pts, addLambert L N 0 = .ok (some pts) ∧ pts.head? = some r0 ∧ pts.getLast? = some r1 := by
  obtain ⟨v0, v1, e0, -, hT, -⟩ := Lambert.C63_solver h hz hx h1 (.inr rfl) hd hroot
  obtain ⟨hf, hm, g, -, -, -, hL⟩ := Lambert.make_inv h
  obtain ⟨pts, p1, p2, p3, -⟩ := C73_direct (L := L) (v0 := v0) (v1 := v1) (by rw [hL]; exact hm) (by rw [hL]; exact hf)
    (by rw [hL]; exact hT) e0 (by rw [hL]; exact hz) hN
  rw [hL] at p2 p3
  exact ⟨pts, p1, p2, p3⟩

/-! ## Examples -/

/-- Hypotheses of `C73_solver`. -/
example (j : Lambert.Junk) : ∃ L pts, (∃ tof, Lambert.make j Lambert.exR0 Lambert.exR1 tof 1 false 0 = .ok L) ∧
    addLambert L 60 0 = .ok (some pts) ∧ pts.getLast? = some ⟨0, 1, 0⟩ := by
  obtain ⟨tof, L, v0, v1, h, hx, -, -, -, hr⟩ := Lambert.C33_example j
  obtain ⟨pts, p1, -, p2⟩ := C73_solver h Lambert.ex_z hx (by norm_num) (by norm_num) hr (N := 60) (by norm_num)
  exact ⟨L, pts, ⟨tof, h⟩, p1, p2⟩

/-- Circular motion, in either direction. -/
noncomputable def circle (s : ℝ) (t : ℝ) : RV ℝ := ⟨⟨cos t, s * sin t, 0⟩, ⟨-sin t, s * cos t, 0⟩⟩

theorem circle_norm {s : ℝ} (hs : s * s = 1) (t : ℝ) : norm (circle s t).r = 1 := by
  apply Lambert.norm_one
  simp only [circle, dot]
  linear_combination sin t ^ 2 * hs + sin_sq_add_cos_sq t

theorem circle_twoBody {s : ℝ} (hs : s * s = 1) : TwoBody 1 (circle s) := by
  constructor <;> intro t <;> try rw [circle_norm hs]
  · exact hasDerivAt_cos t
  · exact (hasDerivAt_sin t).const_mul s
  · exact hasDerivAt_const t 0
  · have := (hasDerivAt_sin t).neg
    simp only [circle, one_pow, div_one, neg_mul, one_mul]
    exact this
  · simpa [circle] using (hasDerivAt_cos t).const_mul s
  · simpa [circle] using hasDerivAt_const t (0 : ℝ)

theorem circle_transfer {s t : ℝ} {cw : Bool} (hs : s = if cw then -1 else 1) (K : ℕ) (h1 : K * (2 * π) < t)
    (h2 : t < (K + 1) * (2 * π)) :
    Lambert.Transfer ⟨1, 0, 0⟩ (circle s t).r t 1 cw K ⟨0, s, 0⟩ (circle s t).v := by
  have hss : s * s = 1 := by rw [hs]; cases cw <;> norm_num
  have hE : energy (⟨⟨1, 0, 0⟩, ⟨0, s, 0⟩⟩ : RV ℝ) 1 = -(1 / 2) := by
    have : norm (⟨1, 0, 0⟩ : V3 ℝ) = 1 := Lambert.norm_one (by norm_num [dot])
    unfold energy
    simp only [dot, this]
    linarith
  refine ⟨?_, ⟨circle s, circle_twoBody hss, by simp [circle], rfl⟩, ?_, ?_⟩
  · rw [hs]; cases cw <;> simp
  · intro a ha h
    rw [hE] at h
    have : a = 1 := by field_simp at h; linarith
    rw [this]
    norm_num
    exact ⟨h1, h2⟩
  · rw [hE]; intro h; norm_num at h

/-- A solved problem, with the velocities of circular motion. -/
noncomputable def circleProblem (s t : ℝ) (n : ℕ) : Lambert :=
  { r0 := ⟨1, 0, 0⟩, r1 := (circle s t).r, tof := t, mu := 1, v0 := List.replicate (2 * n + 1) (some ⟨0, s, 0⟩)
    v1 := List.replicate (2 * n + 1) (some (circle s t).v), iters := [], x := [], s := 0, c := 0, lam := 0, Nmax := n
    hasConverged := true, multiRevs := n }

/-- Hypotheses of `C73_direct`: a quarter of a circle. -/
example : ∃ pts, addLambert (circleProblem 1 (π / 2) 0) 60 0 = .ok (some pts) ∧ pts.getLast? = some ⟨0, 1, 0⟩ := by
  obtain ⟨pts, h1, -, h3, -⟩ := C73_direct (L := circleProblem 1 (π / 2) 0) (N := 60) one_pos
    (show (0 : ℝ) < π / 2 by positivity) (circle_transfer (by simp) 0 (by simp; positivity) (by simp; linarith [pi_pos]))
    (by simp [circleProblem]) (by simp [circleProblem, circle]) (by norm_num)
  exact ⟨pts, h1, by rw [h3]; simp [circleProblem, circle]⟩

/-- Hypotheses of `C73_revolutions`: a circle and a quarter. -/
example : ∃ pts, addLambert (circleProblem 1 (2 * π + π / 2) 1) 60 1 = .ok (some pts) ∧ pts.getLast? = some ⟨1, 0, 0⟩ := by
  obtain ⟨pts, h1, -, h3, -⟩ := C73_revolutions (L := circleProblem 1 (2 * π + π / 2) 1) (N := 60) (k := 1) (K := 1) one_pos
    (show (0 : ℝ) < 2 * π + π / 2 by positivity) le_rfl (by simp [circleProblem]) le_rfl
    (circle_transfer (cw := false) (by simp) 1 (by simp; positivity) (by norm_num; linarith [pi_pos]))
    (by simp [circleProblem]) (by norm_num)
  exact ⟨pts, h1, h3⟩

/-- Hypotheses of `C73_clockwise`: three quarters of a circle, clockwise, to the same point as in the first example; a quarter is
drawn, which ends at the opposite point. -/
example : ∃ pts r, addLambert (circleProblem (-1) (3 * π / 2) 0) 60 0 = .ok (some pts) ∧ pts.getLast? = some r ∧
    (circleProblem (-1) (3 * π / 2) 0).r1 = ⟨0, 1, 0⟩ ∧ r ≠ ⟨0, 1, 0⟩ := by
  have e : (circle (-1) (3 * π / 2)).r = ⟨0, 1, 0⟩ := by
    have h1 : cos (3 * π / 2) = 0 := by
      rw [show 3 * π / 2 = π / 2 + π by ring, cos_add_pi, cos_pi_div_two, neg_zero]
    have h2 : sin (3 * π / 2) = -1 := by
      rw [show 3 * π / 2 = π / 2 + π by ring, sin_add_pi, sin_pi_div_two]
    simp [circle, h1, h2]
  obtain ⟨pts, r, h1, -, h3, h4⟩ := C73_clockwise (L := circleProblem (-1) (3 * π / 2) 0) (N := 60) one_pos
    (show (0 : ℝ) < 3 * π / 2 by positivity)
    (circle_transfer (by simp) 0 (by simp; positivity) (by simp; linarith [pi_pos]))
    (by simp [circleProblem]) (by simp [circleProblem, e]) (by simp [circleProblem, den, V3.norm, dot]) (by norm_num)
  exact ⟨pts, r, h1, h3, e, by rw [← e]; exact h4⟩

end Plot
end Kep3
