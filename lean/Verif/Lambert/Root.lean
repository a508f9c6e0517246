import Verif.Lambert.Deriv
import Verif.Lambert.Battin

/-!
# One transfer without revolutions for each time of flight
-/

namespace Kep3
open Real V3 Filter Topology

namespace Lambert
section
variable {l : ℝ} (hl : l ^ 2 < 1)
include hl

/-- The value of the time of flight in terms of the argument of Battin's series: the difference from the leading term. -/
theorem tofX_near {x : ℝ} (hx : -1 < x) :
    |2 / 3 * (yOf l x - l * x) ^ 3 + 2 * l * (yOf l x - l * x) - tofX l x 0|
      ≤ |1 - l - x * (yOf l x - l * x)| * (tofX l x 0 - 2 * l * (yOf l x - l * x)) := by
  have hη0 := yOf_sub hl x
  have fin : ∀ (z s3 B : ℝ), 0 < s3 → 2 * |z| = |1 - l - x * (yOf l x - l * x)| →
      |4 / 3 * 1 * s3 - B| ≤ 2 * |z| * B →
      tofX l x 0 = (yOf l x - l * x) ^ 3 / 2 * (B / s3) + 2 * l * (yOf l x - l * x) →
      |2 / 3 * (yOf l x - l * x) ^ 3 + 2 * l * (yOf l x - l * x) - tofX l x 0|
      ≤ |1 - l - x * (yOf l x - l * x)| * (tofX l x 0 - 2 * l * (yOf l x - l * x)) := by
    intro z s3 B hs3 hz h0 hT
    rw [← hz, hT]
    have e : 2 / 3 * (yOf l x - l * x) ^ 3 + 2 * l * (yOf l x - l * x)
        - ((yOf l x - l * x) ^ 3 / 2 * (B / s3) + 2 * l * (yOf l x - l * x))
        = (yOf l x - l * x) ^ 3 / 2 / s3 * (4 / 3 * 1 * s3 - B) := by field_simp; ring
    have hp : 0 < (yOf l x - l * x) ^ 3 / 2 / s3 := by positivity
    rw [e, abs_mul, abs_of_pos hp]
    calc _ ≤ (yOf l x - l * x) ^ 3 / 2 / s3 * (2 * |z| * B) := by gcongr
      _ = _ := by ring
  rcases lt_trichotomy x 1 with h | h | h
  · have hw : 0 < 1 - x ^ 2 := by nlinarith
    have hW := sqrt_pos.2 hw
    have hW2 := sq_sqrt hw.le
    obtain ⟨hs, hc, p1, p2⟩ := angE_facts hl hx h
    have h0 := series_ell 0 p1.le p2.le
    have hcz : cos (angE l x) = 1 - 2 * sin (angE l x / 2) ^ 2 := by
      rw [show cos (angE l x) = cos (2 * (angE l x / 2)) by congr 1; ring, cos_two_mul, cos_sq']; ring
    have habs : |sin (angE l x / 2) ^ 2| = sin (angE l x / 2) ^ 2 := abs_of_nonneg (sq_nonneg _)
    refine fin (sin (angE l x / 2) ^ 2) (sin (angE l x) ^ 3) (2 * angE l x - sin (2 * angE l x))
      (pow_pos (sin_pos_of_pos_of_lt_pi p1 p2) 3) ?_ ?_ ?_
    · rw [show 1 - l - x * (yOf l x - l * x) = 2 * sin (angE l x / 2) ^ 2 by rw [hc] at hcz; linarith, abs_mul, abs_two]
    · rw [habs]
      simp only [hypS, cHyp] at h0
      norm_num at h0 ⊢
      linarith
    · have hid := eta_id hl x
      unfold tofX tofE
      rw [if_pos h, sin_two_mul, hs, hc, ← hW2]
      rw [← hW2] at hid
      rw [sqrt_sq hW.le]
      generalize √(1 - x ^ 2) = W at *
      generalize angE l x = A at *
      generalize yOf l x = y at *
      push_cast
      rw [show (A + 0 * π) / W - x + l * y = A / W + (l * y - x) by ring, ← hid]
      field_simp
      ring
  · subst h
    have hy : yOf l 1 = 1 := by unfold yOf; simp
    have ht : tofX l 1 0 = 2 / 3 * (1 - l ^ 3) := by unfold tofX; simp
    rw [hy, ht]
    rw [show 2 / 3 * (1 - l * 1) ^ 3 + 2 * l * (1 - l * 1) - 2 / 3 * (1 - l ^ 3) = 0 by ring,
      show 1 - l - 1 * (1 - l * 1) = 0 by ring]
    simp
  · have hw : 0 < x ^ 2 - 1 := by nlinarith
    have hW := sqrt_pos.2 hw
    have hW2 := sq_sqrt hw.le
    have hs := (angH_facts (l := l) h).1
    have hc := (angH_facts (l := l) h).2
    have p1 := angH_pos hl h
    have h0 := series_hyp 0 p1.le
    have hcz : cosh (angH l x) = 1 + 2 * sinh (angH l x / 2) ^ 2 := by
      rw [show cosh (angH l x) = cosh (2 * (angH l x / 2)) by congr 1; ring, cosh_two_mul, cosh_sq]; ring
    have habs : |-sinh (angH l x / 2) ^ 2| = sinh (angH l x / 2) ^ 2 := by rw [abs_neg, abs_of_nonneg (sq_nonneg _)]
    refine fin (-sinh (angH l x / 2) ^ 2) (sinh (angH l x) ^ 3) (sinh (2 * angH l x) - 2 * angH l x)
      (pow_pos (sinh_pos_iff.2 p1) 3) ?_ ?_ ?_
    · rw [show 1 - l - x * (yOf l x - l * x) = 2 * -sinh (angH l x / 2) ^ 2 by rw [hc] at hcz; linarith, abs_mul, abs_two]
    · rw [habs]
      simp only [hypS, cHyp] at h0
      norm_num at h0 ⊢
      linarith
    · have hid := eta_id hl x
      unfold tofX tofH
      rw [if_neg h.not_gt, if_neg h.ne', sinh_two_mul, hs, hc, ← hW2]
      rw [show 1 - x ^ 2 = -(x ^ 2 - 1) by ring, ← hW2] at hid
      rw [sqrt_sq hW.le, show 1 - x ^ 2 = -√(x ^ 2 - 1) ^ 2 by rw [hW2]; ring]
      generalize √(x ^ 2 - 1) = W at *
      generalize angH l x = A at *
      generalize yOf l x = y at *
      rw [show x - l * y - A / W = -(l * y - x) - A / W by ring, ← hid]
      field_simp
      ring

theorem tofX_continuousAt_one : ContinuousAt (fun x => tofX l x 0) 1 := by
  have hyc : ContinuousAt (yOf l) 1 := (hasDerivAt_yOf hl 1).continuousAt
  have hy1 : yOf l 1 = 1 := by unfold yOf; simp
  have ht : tofX l 1 0 = 2 / 3 * (1 - l ^ 3) := by unfold tofX; simp
  -- T is squeezed between q / (1 ± ζ)
  have hη : Tendsto (fun x => yOf l x - l * x) (𝓝 1) (𝓝 (1 - l)) := by
    have : ContinuousAt (fun x => yOf l x - l * x) 1 := hyc.sub (by fun_prop)
    have h := this.tendsto
    rwa [hy1, mul_one] at h
  have hζ : Tendsto (fun x => |1 - l - x * (yOf l x - l * x)|) (𝓝 1) (𝓝 0) := by
    have h := ((tendsto_id (x := 𝓝 (1 : ℝ))).mul hη).const_sub (1 - l) |>.abs
    simpa using h
  have hq : Tendsto (fun x => 2 / 3 * (yOf l x - l * x) ^ 3) (𝓝 1) (𝓝 (2 / 3 * (1 - l) ^ 3)) := (hη.pow 3).const_mul _
  have lim : 2 * l * (1 - l) + 2 / 3 * (1 - l) ^ 3 / 1 = tofX l 1 0 := by rw [ht]; ring
  have hlow : Tendsto (fun x => 2 * l * (yOf l x - l * x)
      + 2 / 3 * (yOf l x - l * x) ^ 3 / (1 + |1 - l - x * (yOf l x - l * x)|)) (𝓝 1) (𝓝 (tofX l 1 0)) := by
    have h := (hη.const_mul (2 * l)).add (hq.div (hζ.const_add 1) (by norm_num))
    rw [add_zero, lim] at h
    exact h
  have hup : Tendsto (fun x => 2 * l * (yOf l x - l * x)
      + 2 / 3 * (yOf l x - l * x) ^ 3 / (1 - |1 - l - x * (yOf l x - l * x)|)) (𝓝 1) (𝓝 (tofX l 1 0)) := by
    have h := (hη.const_mul (2 * l)).add (hq.div (hζ.const_sub 1) (by norm_num))
    rw [sub_zero, lim] at h
    exact h
  have hev : ∀ᶠ x in 𝓝 (1 : ℝ), -1 < x := lt_mem_nhds (by norm_num)
  have hev2 : ∀ᶠ x in 𝓝 (1 : ℝ), |1 - l - x * (yOf l x - l * x)| < 1 := hζ.eventually (gt_mem_nhds one_pos)
  refine tendsto_of_tendsto_of_tendsto_of_le_of_le' hlow hup ?_ ?_
  · filter_upwards [hev] with x hx
    have h := (abs_le.1 (tofX_near hl hx)).2
    have hp : 0 < 1 + |1 - l - x * (yOf l x - l * x)| := by positivity
    have : 2 / 3 * (yOf l x - l * x) ^ 3 / (1 + |1 - l - x * (yOf l x - l * x)|) ≤ tofX l x 0 - 2 * l * (yOf l x - l * x) := by
      rw [div_le_iff₀ hp]; linarith
    linarith
  · filter_upwards [hev, hev2] with x hx hx2
    have h := (abs_le.1 (tofX_near hl hx)).1
    have hp : 0 < 1 - |1 - l - x * (yOf l x - l * x)| := by linarith
    have : tofX l x 0 - 2 * l * (yOf l x - l * x) ≤ 2 / 3 * (yOf l x - l * x) ^ 3 / (1 - |1 - l - x * (yOf l x - l * x)|) := by
      rw [le_div_iff₀ hp]; linarith
    linarith

theorem hasDerivAt_tofX_lt {x : ℝ} (h1 : -1 < x) (h2 : x < 1) (N : ℕ) :
    HasDerivAt (fun x => tofX l x N) (d1 l x (tofX l x N)) x := by
  have h := hasDerivAt_tofE hl h1 h2 N
  have e : ∀ z, z < 1 → tofX l z N = tofE l z N := fun z hz => if_pos hz
  rw [e x h2]
  exact h.congr_of_eventuallyEq ((gt_mem_nhds h2).mono fun z hz => e z hz)

theorem hasDerivAt_tofX_gt {x : ℝ} (h2 : 1 < x) (N : ℕ) :
    HasDerivAt (fun x => tofX l x N) (d1 l x (tofX l x N)) x := by
  have h := hasDerivAt_tofH hl h2
  have e : ∀ z, 1 < z → tofX l z N = tofH l z := fun z hz => by
    unfold tofX; rw [if_neg hz.not_gt, if_neg hz.ne']
  rw [e x h2]
  exact h.congr_of_eventuallyEq ((lt_mem_nhds h2).mono fun z hz => e z hz)

theorem tofX_continuousAt {x : ℝ} (hx : -1 < x) : ContinuousAt (fun x => tofX l x 0) x := by
  rcases lt_trichotomy x 1 with h | h | h
  · exact (hasDerivAt_tofX_lt hl hx h 0).continuousAt
  · rw [h]; exact tofX_continuousAt_one hl
  · exact (hasDerivAt_tofX_gt hl h 0).continuousAt

theorem tofX_strictAnti : StrictAntiOn (fun x => tofX l x 0) (Set.Ioi (-1)) := by
  have a1 : StrictAntiOn (fun x => tofX l x 0) (Set.Ioc (-1) 1) := by
    refine strictAntiOn_of_deriv_neg (convex_Ioc _ _)
      (fun x hx => (tofX_continuousAt hl hx.1).continuousWithinAt) ?_
    intro x hx
    rw [interior_Ioc] at hx
    rw [(hasDerivAt_tofX_lt hl hx.1 hx.2 0).deriv, show tofX l x 0 = tofE l x 0 from if_pos hx.2]
    exact d1_tofE_neg hl hx.1 hx.2
  have a2 : StrictAntiOn (fun x => tofX l x 0) (Set.Ici 1) := by
    refine strictAntiOn_of_deriv_neg (convex_Ici _)
      (fun x hx => (tofX_continuousAt hl (by have := Set.mem_Ici.1 hx; linarith)).continuousWithinAt) ?_
    intro x hx
    rw [interior_Ici] at hx
    have hx' : 1 < x := hx
    rw [(hasDerivAt_tofX_gt hl hx' 0).deriv, show tofX l x 0 = tofH l x by
      unfold tofX; rw [if_neg hx'.not_gt, if_neg hx'.ne']]
    exact d1_tofH_neg hl hx'
  intro a ha b hb hab
  have ha' : -1 < a := ha
  rcases le_or_gt b 1 with h | h
  · exact a1 ⟨ha, hab.le.trans h⟩ ⟨hb, h⟩ hab
  · rcases le_or_gt 1 a with h' | h'
    · exact a2 h' h.le hab
    · exact (a2 (Set.mem_Ici.2 le_rfl) h.le h).trans (a1 ⟨ha, h'.le⟩ ⟨by norm_num, le_rfl⟩ h')

theorem tofX_large (T : ℝ) : ∃ x, -1 < x ∧ x < 1 ∧ T ≤ tofX l x 0 := by
  have hw : Tendsto (fun x : ℝ => √(1 - x ^ 2)) (𝓝[>] (-1)) (𝓝 0) := by
    have : Continuous fun x : ℝ => √(1 - x ^ 2) := by fun_prop
    have h := (this.tendsto (-1)).mono_left (nhdsWithin_le_nhds (s := Set.Ioi (-1)))
    simpa using h
  have hn : Tendsto (fun x : ℝ => angE l x - x * √(1 - x ^ 2) + l * yOf l x * √(1 - x ^ 2)) (𝓝[>] (-1)) (𝓝 π) := by
    have hc : Continuous fun x : ℝ => angE l x - x * √(1 - x ^ 2) + l * yOf l x * √(1 - x ^ 2) := by
      unfold angE yOf
      have := continuous_arccos
      have := continuous_arcsin
      fun_prop
    have h := (hc.tendsto (-1)).mono_left (nhdsWithin_le_nhds (s := Set.Ioi (-1)))
    have e : angE l (-1) - -1 * √(1 - (-1) ^ 2) + l * yOf l (-1) * √(1 - (-1) ^ 2) = π := by
      unfold angE; simp
    rwa [e] at h
  have hpos : ∀ᶠ x : ℝ in 𝓝[>] (-1), 0 < √(1 - x ^ 2) ^ 3 := by
    have : ∀ᶠ x : ℝ in 𝓝[>] (-1), x ∈ Set.Ioo (-1 : ℝ) 1 := Ioo_mem_nhdsGT (by norm_num)
    filter_upwards [this] with x hx
    exact pow_pos (sqrt_pos.2 (by nlinarith [hx.1, hx.2])) 3
  have hinf : Tendsto (fun x : ℝ => (√(1 - x ^ 2) ^ 3)⁻¹) (𝓝[>] (-1)) atTop := by
    refine Tendsto.inv_tendsto_nhdsGT_zero (tendsto_nhdsWithin_iff.2 ⟨by simpa using hw.pow 3, hpos⟩)
  have hT := hn.pos_mul_atTop pi_pos hinf
  have hI : ∀ᶠ x : ℝ in 𝓝[>] (-1), x ∈ Set.Ioo (-1 : ℝ) 1 := Ioo_mem_nhdsGT (by norm_num)
  obtain ⟨x, hx1, hx2⟩ := ((hT.eventually_ge_atTop T).and hI).exists
  refine ⟨x, hx2.1, hx2.2, ?_⟩
  have h := tofE_diff hl hx2.1 hx2.2 0
  obtain ⟨b1, b2, -⟩ := B_facts hl hx2.1 hx2.2
  rw [b1, b2, sin_arccos, cos_arccos hx2.1.le hx2.2.le] at h
  have hw3 : 0 < √(1 - x ^ 2) ^ 3 := pow_pos (sqrt_pos.2 (by nlinarith [hx2.1, hx2.2])) 3
  rw [show tofX l x 0 = tofE l x 0 from if_pos hx2.2]
  refine hx1.trans (le_of_eq ?_)
  unfold angE
  rw [← div_eq_mul_inv, div_eq_iff hw3.ne', h]
  push_cast
  ring

theorem tofX_small {T : ℝ} (hT : 0 < T) : ∃ x, 1 < x ∧ tofX l x 0 ≤ T := by
  refine ⟨4 + 3 / T, by have : 0 < 3 / T := by positivity
                        linarith, ?_⟩
  obtain ⟨x, hx⟩ : ∃ x, x = 4 + 3 / T := ⟨_, rfl⟩
  have h3 : 0 < 3 / T := by positivity
  rw [← hx]
  have hx4 : 4 < x := by linarith
  have hxT : 3 < x * T := by rw [hx, add_mul, div_mul_cancel₀ _ hT.ne']; linarith
  have h1 : 1 < x := by linarith
  unfold tofX tofH
  rw [if_neg h1.not_gt, if_neg h1.ne']
  have hw : 0 < x ^ 2 - 1 := by nlinarith
  have ha := div_pos (angH_pos hl h1) (sqrt_pos.2 hw)
  have hy := yOf_sq hl x
  have hyp := yOf_pos hl x
  have hyx : yOf l x ≤ x := by nlinarith
  have hly : -(l * yOf l x) ≤ x := by
    have := (abs_lt.1 ((sq_lt_one_iff_abs_lt_one _).1 hl)).1
    nlinarith
  rw [div_le_iff₀ hw]
  nlinarith

/-- For each positive time of flight there is exactly one value of the iteration variable without revolutions. -/
theorem tofX_unique {T : ℝ} (hT : 0 < T) : ∃! x, -1 < x ∧ tofX l x 0 = T := by
  obtain ⟨a, ha1, ha2, ha⟩ := tofX_large hl T
  obtain ⟨b, hb1, hb⟩ := tofX_small hl hT
  have hab : a ≤ b := by linarith
  have hc : ContinuousOn (fun x => tofX l x 0) (Set.Icc a b) := fun x hx =>
    (tofX_continuousAt hl (by linarith [hx.1])).continuousWithinAt
  obtain ⟨x, hx, hxT⟩ := intermediate_value_Icc' hab hc ⟨hb, ha⟩
  refine ⟨x, ⟨by linarith [hx.1], hxT⟩, ?_⟩
  rintro z ⟨hz1, hz2⟩
  exact (tofX_strictAnti hl).injOn (Set.mem_Ioi.2 hz1) (Set.mem_Ioi.2 (by linarith [hx.1])) (hz2.trans hxT.symm)
end
end Lambert
end Kep3
