import Verif.Lambert.Orbit

/-!
# The transfer in the universal anomaly
-/

namespace Kep3
open Real V3

theorem eq_of_invariants {r v w : V3 ℝ} {mu : ℝ} (hmu : 0 < mu) (hh : angMom ⟨r, v⟩ ≠ 0)
    (h1 : angMom ⟨r, v⟩ = angMom ⟨r, w⟩) (h2 : eccVec ⟨r, v⟩ mu = eccVec ⟨r, w⟩ mu) : v = w := by
  have hr : r ≠ 0 := r_ne_of_h hh
  unfold angMom at h1 hh
  simp only at h1 hh
  obtain ⟨h, hdef⟩ : ∃ h, h = cross r v := ⟨_, rfl⟩
  have hc : cross (v - w) h = 0 := by
    unfold eccVec at h2
    simp only [← h1, ← hdef] at h2
    have a1 := congrArg V3.x h2
    have a2 := congrArg V3.y h2
    have a3 := congrArg V3.z h2
    simp only [smul_x, smul_y, smul_z, sub_x, sub_y, sub_z] at a1 a2 a3
    have hm : (1 / mu) ≠ 0 := by positivity
    have e : cross (v - w) h = cross v h - cross w h := by ext <;> simp <;> ring
    rw [e]
    ext
    · simp only [sub_x, zero_x]; apply mul_left_cancel₀ hm; linear_combination a1
    · simp only [sub_y, zero_y]; apply mul_left_cancel₀ hm; linear_combination a2
    · simp only [sub_z, zero_z]; apply mul_left_cancel₀ hm; linear_combination a3
  have hd : cross r (v - w) = 0 := by
    have e : cross r (v - w) = cross r v - cross r w := by ext <;> simp <;> ring
    rw [e, ← h1]; ext <;> simp
  have e1 : dot r r • (v - w) = dot r (v - w) • r := by
    have : cross r (cross r (v - w)) = dot r (v - w) • r - dot r r • (v - w) := by ext <;> simp [dot] <;> ring
    rw [hd] at this
    have z : cross r (0 : V3 ℝ) = 0 := by ext <;> simp
    rw [z] at this
    have b1 := congrArg V3.x this
    have b2 := congrArg V3.y this
    have b3 := congrArg V3.z this
    simp only [smul_x, smul_y, smul_z, sub_x, sub_y, sub_z, zero_x, zero_y, zero_z] at b1 b2 b3
    ext
    · simp only [smul_x, sub_x]; linarith
    · simp only [smul_y, sub_y]; linarith
    · simp only [smul_z, sub_z]; linarith
  have hrr : dot r r ≠ 0 := by rw [← norm_sq]; exact (pow_pos (norm_pos hr) 2).ne'
  have e2 : dot (v - w) h = 0 := by
    have : dot r r * dot (v - w) h = 0 := by
      rw [← smul_dot, e1, smul_dot, hdef]
      have : dot r (cross r v) = 0 := by simp [dot]; ring
      rw [this, mul_zero]
    exact (mul_eq_zero.1 this).resolve_left hrr
  have e3 : dot (v - w) (v - w) = 0 := by
    have := cross_dot_cross (v - w) h
    rw [hc, e2] at this
    have hhh : dot h h ≠ 0 := by rw [← norm_sq, hdef]; exact (pow_pos (norm_pos hh) 2).ne'
    have z : dot (0 : V3 ℝ) 0 = 0 := by simp [dot]
    rw [z] at this
    have : dot (v - w) (v - w) * dot h h = 0 := by linarith
    exact (mul_eq_zero.1 this).resolve_right hhh
  have e4 : v - w = 0 := by
    by_contra hne
    have := pow_pos (norm_pos hne) 2
    rw [norm_sq] at this; linarith
  have b1 := congrArg V3.x e4
  have b2 := congrArg V3.y e4
  have b3 := congrArg V3.z e4
  simp only [sub_x, sub_y, sub_z, zero_x, zero_y, zero_z] at b1 b2 b3
  ext <;> linarith

namespace Lambert
section
variable {r0 r1 : V3 ℝ} {cw : Bool} {g : Geom} {f : Frame} {ct st rho sg mu : ℝ}

/-- The second position as a combination of the first state. -/
theorem chord (S : Spec r0 r1 cw g f ct st rho sg) (hmu : 0 < mu) (x : ℝ) {v0 v1 : V3 ℝ}
    (hv : velocities g mu x = some (v0, v1)) {C D : ℝ}
    (hC : C = x * yOf g.lam x + g.lam * (1 - x ^ 2)) (hD : D = √(g.s / 2) * (yOf g.lam x - g.lam * x)) :
    angMom ⟨r0, v0⟩ ≠ 0 ∧ alphaOf ⟨r0, v0⟩ mu = 2 * (1 - x ^ 2) / g.s ∧ norm r0 = g.Rs ∧
    g.Rs * (2 * C * D) + sigmaOf ⟨r0, v0⟩ mu * (2 * D ^ 2) = 2 * g.s * g.lam * D ∧
    (1 - 2 * D ^ 2 / g.Rs) • r0 + (2 * g.s * g.lam * D / √mu) • v0 = r1 ∧
    angMom ⟨r0, v0⟩ = angMom ⟨r1, v1⟩ ∧ eccVec ⟨r0, v0⟩ mu = eccVec ⟨r1, v1⟩ mu := by
  obtain ⟨v0', v1', hv', hE0, hE1, ⟨h, hpos, hA0, hA1⟩, hec⟩ := orbit S hmu x
  obtain ⟨rfl, rfl⟩ : v0 = v0' ∧ v1 = v1' := by
    rw [hv] at hv'; simpa using hv'
  have hW : dot (cross f.irs f.its) (cross f.irs f.its) = 1 := by
    rw [cross_dot_cross, S.uu, S.tt, S.ut]; ring
  have hne : ∀ k : ℝ, 0 < k → k • cross f.irs f.its ≠ 0 := by
    intro k hk h0
    have := congrArg (fun d => dot d (cross f.irs f.its)) h0
    simp only [smul_dot, hW] at this
    have z : dot (0 : V3 ℝ) (cross f.irs f.its) = 0 := by simp [dot]
    rw [z] at this
    linarith
  have hh : angMom ⟨r0, v0⟩ ≠ 0 := by rw [hA0]; exact hne h hpos
  have hs := S.s_pos
  have hα : alphaOf ⟨r0, v0⟩ mu = 2 * (1 - x ^ 2) / g.s := by
    have := energy_alpha (x := ⟨r0, v0⟩) hmu hh
    rw [hE0] at this
    apply mul_left_cancel₀ (show -(mu / 2) ≠ 0 by have := hmu.ne'; simp [this])
    rw [← this]; ring
  have hvel := velocities_ok S hmu x
  rw [hv] at hvel
  simp only [Option.some.injEq, Prod.mk.injEq] at hvel
  have hy := yOf_sq S.lam_lt x
  have hη := yOf_sub S.lam_lt x
  generalize yOf g.lam x = y at *
  have hRs := S.Rs_pos
  have hRf := S.Rf_pos
  have hk : √mu ^ 2 = mu := sq_sqrt hmu.le
  have hkp : 0 < √mu := sqrt_pos.2 hmu
  have hq : √(g.s / 2) ^ 2 = g.s / 2 := sq_sqrt (by positivity)
  have hga : √(mu * g.s / 2) = √mu * √(g.s / 2) := by
    rw [mul_div_assoc, sqrt_mul hmu.le]
  rw [hga] at hvel
  generalize √(g.s / 2) = q at *
  obtain ⟨k, hkd⟩ : ∃ k, k = √mu := ⟨_, rfl⟩
  rw [← hkd] at hk hkp hvel ⊢
  have hn : norm r0 = g.Rs := by
    rw [S.r0_eq]
    unfold V3.norm; rw [smul_dot, dot_smul, S.uu, mul_one, sqrt_mul_self hRs.le]
  have hσ : dot r0 v0 = k * q * ((g.lam * y - x) - rho * (g.lam * y + x)) := by
    rw [hvel.1, S.r0_eq]
    simp only [smul_dot, dot_smul, dot_add, S.uu, S.ut]
    field_simp
    ring
  have hsl : g.Rs * C + q * ((g.lam * y - x) - rho * (g.lam * y + x)) * D = g.s * g.lam := by
    rw [hC, hD, S.Rs_eq]
    linear_combination (g.s / 2) * g.lam * (1 - rho) * hy
      + ((g.lam * y - x) - rho * (g.lam * y + x)) * (y - g.lam * x) * hq
  have hsl2 : g.Rs * (2 * C * D) + q * ((g.lam * y - x) - rho * (g.lam * y + x)) * (2 * D ^ 2) = 2 * g.s * g.lam * D := by
    linear_combination 2 * D * hsl
  have hsig : sigmaOf ⟨r0, v0⟩ mu = q * ((g.lam * y - x) - rho * (g.lam * y + x)) := by
    unfold sigmaOf
    simp only
    rw [hσ, ← hkd]
    field_simp
  have hD2 : D ^ 2 = g.s / 2 * (y - g.lam * x) ^ 2 := by rw [hD, mul_pow, hq]
  have hpos : (1 - 2 * D ^ 2 / g.Rs) • r0 + (2 * g.s * g.lam * D / k) • v0 = r1 := by
    rw [hvel.1, S.r1_eq, S.irf_eq, S.r0_eq]
    have c1 : (1 - 2 * D ^ 2 / g.Rs) * g.Rs + 2 * g.s * g.lam * D / k
        * (k * q * ((g.lam * y - x) - rho * (g.lam * y + x)) / g.Rs) = g.Rf * ct := by
      have e0 : 2 * g.s * g.lam * D / k * (k * q * ((g.lam * y - x) - rho * (g.lam * y + x)) / g.Rs)
          = g.s ^ 2 * g.lam * (y - g.lam * x) * ((g.lam * y - x) - rho * (g.lam * y + x)) / g.Rs := by
        have e : 2 * g.s * g.lam * D / k * (k * q * ((g.lam * y - x) - rho * (g.lam * y + x)) / g.Rs)
            = 2 * g.s * g.lam * q ^ 2 * (y - g.lam * x) * ((g.lam * y - x) - rho * (g.lam * y + x)) / g.Rs := by
          rw [hD]; field_simp
        rw [e, hq]; ring
      rw [e0, hD2]
      have e1 : g.Rs ^ 2 - g.s * (y - g.lam * x) ^ 2 * g.Rs
          + g.s ^ 2 * g.lam * (y - g.lam * x) * ((g.lam * y - x) - rho * (g.lam * y + x))
          = 2 * g.s ^ 2 * g.lam ^ 2 - g.Rs * g.Rf := by
        rw [S.Rs_eq, S.Rf_eq]
        linear_combination (-g.s * (g.s / 2 * (1 + g.lam ^ 2 + rho * (1 - g.lam ^ 2))) + g.s ^ 2 * g.lam ^ 2 * (1 - rho)) * hy
      apply mul_left_cancel₀ hRs.ne'
      have e2 := S.cos_eq
      rw [← e1] at e2
      rw [← mul_assoc g.Rs g.Rf ct, e2]
      field_simp
    have c2 : 2 * g.s * g.lam * D / k * (k * q * sg * (y + g.lam * x) / g.Rs) = g.Rf * st := by
      have e0 : 2 * g.s * g.lam * D / k * (k * q * sg * (y + g.lam * x) / g.Rs)
          = g.s ^ 2 * g.lam * sg * (y ^ 2 - g.lam ^ 2 * x ^ 2) / g.Rs := by
        have e : 2 * g.s * g.lam * D / k * (k * q * sg * (y + g.lam * x) / g.Rs)
            = 2 * g.s * g.lam * q ^ 2 * sg * ((y - g.lam * x) * (y + g.lam * x)) / g.Rs := by
          rw [hD]; field_simp
        rw [e, hq]; ring
      rw [e0, hy]
      apply mul_left_cancel₀ hRs.ne'
      rw [← mul_assoc, S.sin_eq]
      field_simp
      ring
    ext
    · simp; linear_combination f.irs.x * c1 + f.its.x * c2
    · simp; linear_combination f.irs.y * c1 + f.its.y * c2
    · simp; linear_combination f.irs.z * c1 + f.its.z * c2
  exact ⟨hh, hα, hn, by rw [hsig]; exact hsl2, hpos, by rw [hA0, hA1], hec⟩

/-- With the universal anomaly that belongs to `x`, the motion from the first state arrives at the second one, and its
duration is the time of flight of the transfer. -/
theorem arrive (S : Spec r0 r1 cw g f ct st rho sg) (hmu : 0 < mu) (x : ℝ) {v0 v1 : V3 ℝ}
    (hv : velocities g mu x = some (v0, v1)) {w C D : ℝ}
    (hC : C = x * yOf g.lam x + g.lam * (1 - x ^ 2)) (hD : D = √(g.s / 2) * (yOf g.lam x - g.lam * x))
    (h1 : U1 (2 * (1 - x ^ 2) / g.s) w = 2 * C * D) (h2 : U2 (2 * (1 - x ^ 2) / g.s) w = 2 * D ^ 2) :
    angMom ⟨r0, v0⟩ ≠ 0 ∧ alphaOf ⟨r0, v0⟩ mu = 2 * (1 - x ^ 2) / g.s ∧
    stateU ⟨r0, v0⟩ mu w = ⟨r1, v1⟩ ∧
    timeU ⟨r0, v0⟩ mu w = (2 * g.s * g.lam * D + U3 (2 * (1 - x ^ 2) / g.s) w) / √mu := by
  obtain ⟨hh, hα, hn, hsl2, hpos, hA, hec⟩ := chord S hmu x hv hC hD
  have hG : GU ⟨r0, v0⟩ mu w = 2 * g.s * g.lam * D / √mu := by
    unfold GU
    rw [hα, h1, h2, hn, hsl2]
  have hF : FU ⟨r0, v0⟩ mu w = 1 - 2 * D ^ 2 / g.Rs := by
    unfold FU
    rw [hα, h2, hn]
  have hst : (stateU ⟨r0, v0⟩ mu w).r = r1 := by rw [← hpos, ← hF, ← hG]; rfl
  have hAm := angMom_stateU (x := ⟨r0, v0⟩) hmu hh w
  have hEc := eccVec_stateU (x := ⟨r0, v0⟩) hmu hh w
  refine ⟨hh, hα, ?_, ?_⟩
  · obtain ⟨⟨r, v⟩, hX⟩ : ∃ X, stateU ⟨r0, v0⟩ mu w = X := ⟨_, rfl⟩
    rw [hX] at hst hAm hEc
    rw [hX]
    simp only at hst
    subst hst
    have : v = v1 := eq_of_invariants hmu (by rw [hAm]; exact hh) (by rw [hAm, hA]) (by rw [hEc, hec])
    rw [this]
  · unfold timeU
    rw [hα, h1, h2, hn, hsl2]

/-- Conversely the universal anomaly at the second position belongs to `x`. -/
theorem arrive_inv (S : Spec r0 r1 cw g f ct st rho sg) (hmu : 0 < mu) (x : ℝ) {v0 v1 : V3 ℝ}
    (hv : velocities g mu x = some (v0, v1)) {w C D : ℝ}
    (hC : C = x * yOf g.lam x + g.lam * (1 - x ^ 2)) (hD : D = √(g.s / 2) * (yOf g.lam x - g.lam * x))
    (hst : (stateU ⟨r0, v0⟩ mu w).r = r1) :
    U1 (2 * (1 - x ^ 2) / g.s) w = 2 * C * D ∧ U2 (2 * (1 - x ^ 2) / g.s) w = 2 * D ^ 2 := by
  obtain ⟨hh, hα, hn, hsl2, hpos, hA, hec⟩ := chord S hmu x hv hC hD
  have hst' : FU ⟨r0, v0⟩ mu w • r0 + GU ⟨r0, v0⟩ mu w • v0 = r1 := hst
  have hRs := S.Rs_pos
  have hk := sqrt_pos.2 hmu
  -- positions and velocities are independent
  have ind : ∀ a b a' b' : ℝ, a • r0 + b • v0 = a' • r0 + b' • v0 → a = a' ∧ b = b' := by
    intro a b a' b' h
    have hcc : 0 < dot (angMom ⟨r0, v0⟩) (angMom ⟨r0, v0⟩) := by
      rw [← norm_sq]; exact pow_pos (norm_pos hh) 2
    have e1 := congrArg (fun u => dot (cross u v0) (angMom ⟨r0, v0⟩)) h
    have e2 := congrArg (fun u => dot (cross r0 u) (angMom ⟨r0, v0⟩)) h
    have f1 : ∀ a b : ℝ, dot (cross (a • r0 + b • v0) v0) (angMom ⟨r0, v0⟩)
        = a * dot (angMom ⟨r0, v0⟩) (angMom ⟨r0, v0⟩) := by
      intro a b; unfold angMom; simp [dot]; ring
    have f2 : ∀ a b : ℝ, dot (cross r0 (a • r0 + b • v0)) (angMom ⟨r0, v0⟩)
        = b * dot (angMom ⟨r0, v0⟩) (angMom ⟨r0, v0⟩) := by
      intro a b; unfold angMom; simp [dot]; ring
    simp only [f1] at e1
    simp only [f2] at e2
    exact ⟨mul_right_cancel₀ hcc.ne' e1, mul_right_cancel₀ hcc.ne' e2⟩
  obtain ⟨hF, hG⟩ := ind _ _ _ _ (hst'.trans hpos.symm)
  unfold FU at hF
  unfold GU at hG
  simp only at hF hG
  rw [hα, hn] at hF hG
  have h2 : U2 (2 * (1 - x ^ 2) / g.s) w = 2 * D ^ 2 := by
    have := sub_right_injective hF
    exact (div_left_inj' hRs.ne').1 this
  refine ⟨?_, h2⟩
  rw [h2] at hG
  have h3 := (div_left_inj' hk.ne').1 hG
  apply mul_left_cancel₀ hRs.ne'
  linarith
end
end Lambert
end Kep3
