import Verif.Lambert.Flow
import Verif.Lagr.Run

/-!
# The exact time of flight as a function of the iteration variable
-/

namespace Kep3
open Real V3

namespace Lambert

/-- Half of the difference in eccentric anomaly on an ellipse, with `N` revolutions. -/
noncomputable def angE (l x : ℝ) : ℝ := arccos x - arcsin (l * √(1 - x ^ 2))
/-- Half of the difference in hyperbolic anomaly. -/
noncomputable def angH (l x : ℝ) : ℝ := arcosh x - arsinh (l * √(x ^ 2 - 1))

/-- The exact non-dimensional time of flight. -/
noncomputable def tofE (l x : ℝ) (N : ℕ) : ℝ := ((angE l x + N * π) / √(1 - x ^ 2) - x + l * yOf l x) / (1 - x ^ 2)
noncomputable def tofH (l x : ℝ) : ℝ := (x - l * yOf l x - angH l x / √(x ^ 2 - 1)) / (x ^ 2 - 1)
noncomputable def tofX (l x : ℝ) (N : ℕ) : ℝ :=
  if x < 1 then tofE l x N else if x = 1 then 2 / 3 * (1 - l ^ 3) else tofH l x

section
variable {l x : ℝ}

theorem lw_lt (hl : l ^ 2 < 1) (h1 : -1 < x) (h2 : x < 1) : (l * √(1 - x ^ 2)) ^ 2 < 1 := by
  rw [mul_pow, sq_sqrt (by nlinarith)]
  nlinarith [sq_nonneg x, sq_nonneg l, mul_nonneg (sq_nonneg l) (sq_nonneg x)]

theorem angE_facts (hl : l ^ 2 < 1) (h1 : -1 < x) (h2 : x < 1) :
    sin (angE l x) = √(1 - x ^ 2) * (yOf l x - l * x) ∧
    cos (angE l x) = x * yOf l x + l * (1 - x ^ 2) ∧ 0 < angE l x ∧ angE l x < π := by
  have hw : 0 < 1 - x ^ 2 := by nlinarith
  have hw2 := sq_sqrt hw.le
  have hlt := lw_lt hl h1 h2
  have hab := abs_lt.1 ((sq_lt_one_iff_abs_lt_one _).1 hlt)
  have hcB : cos (arcsin (l * √(1 - x ^ 2))) = yOf l x := by
    rw [cos_arcsin, mul_pow, hw2]; unfold yOf; congr 1; ring
  have hsB : sin (arcsin (l * √(1 - x ^ 2))) = l * √(1 - x ^ 2) := sin_arcsin hab.1.le hab.2.le
  have hs : sin (angE l x) = √(1 - x ^ 2) * (yOf l x - l * x) := by
    unfold angE
    rw [sin_sub, sin_arccos, cos_arccos h1.le h2.le, hcB, hsB]; ring
  have hc : cos (angE l x) = x * yOf l x + l * (1 - x ^ 2) := by
    unfold angE
    rw [cos_sub, sin_arccos, cos_arccos h1.le h2.le, hcB, hsB]; linear_combination l * hw2
  have hpos : 0 < sin (angE l x) := by
    rw [hs]; exact mul_pos (sqrt_pos.2 hw) (yOf_sub hl x)
  have b1 : -(π / 2) ≤ angE l x := by
    unfold angE
    have := arccos_nonneg x
    have := arcsin_le_pi_div_two (l * √(1 - x ^ 2))
    linarith
  have b2 : angE l x ≤ π + π / 2 := by
    unfold angE
    have := arccos_le_pi x
    have := neg_pi_div_two_le_arcsin (l * √(1 - x ^ 2))
    linarith
  have hpi := pi_pos
  refine ⟨hs, hc, ?_, ?_⟩
  · by_contra h
    have := sin_nonpos_of_nonpos_of_neg_pi_le (not_lt.1 h) (by linarith)
    linarith
  · by_contra h
    have : 0 ≤ sin (angE l x - π) := sin_nonneg_of_nonneg_of_le_pi (by linarith [not_lt.1 h]) (by linarith)
    rw [sin_sub_pi] at this; linarith

theorem angH_facts (h2 : 1 < x) :
    sinh (angH l x) = √(x ^ 2 - 1) * (yOf l x - l * x) ∧
    cosh (angH l x) = x * yOf l x + l * (1 - x ^ 2) := by
  have hw : 0 < x ^ 2 - 1 := by nlinarith
  have hw2 := sq_sqrt hw.le
  have hcB : cosh (arsinh (l * √(x ^ 2 - 1))) = yOf l x := by
    rw [cosh_arsinh, mul_pow, hw2]; unfold yOf; congr 1; ring
  constructor
  · unfold angH
    rw [sinh_sub, sinh_arcosh h2.le, cosh_arcosh h2.le, hcB, sinh_arsinh]; ring
  · unfold angH
    rw [cosh_sub, sinh_arcosh h2.le, cosh_arcosh h2.le, hcB, sinh_arsinh]; linear_combination -l * hw2

theorem angH_pos (hl : l ^ 2 < 1) (h2 : 1 < x) : 0 < angH l x := by
  rw [← sinh_pos_iff, (angH_facts h2).1]
  exact mul_pos (sqrt_pos.2 (by nlinarith)) (yOf_sub hl x)

/-- The identity behind both forms of the time equation. -/
theorem eta_id (hl : l ^ 2 < 1) (x : ℝ) :
    (yOf l x - l * x) * (l * (1 - x ^ 2) - x * yOf l x) = l * yOf l x - x := by
  have := yOf_sq hl x
  linear_combination (-x) * this
end

section
variable {r0 r1 : V3 ℝ} {cw : Bool} {g : Geom} {f : Frame} {ct st rho sg mu : ℝ}

/-- For every value of the iteration variable the motion from the first state arrives at the second one, and it takes the
time `tofX`. -/
theorem reach (S : Spec r0 r1 cw g f ct st rho sg) (hmu : 0 < mu) {x : ℝ} (hx : -1 < x) (N : ℕ) {v0 v1 : V3 ℝ}
    (hv : velocities g mu x = some (v0, v1)) :
    angMom ⟨r0, v0⟩ ≠ 0 ∧ alphaOf ⟨r0, v0⟩ mu = 2 * (1 - x ^ 2) / g.s ∧
    ∃ w, stateU ⟨r0, v0⟩ mu w = ⟨r1, v1⟩ ∧
      timeU ⟨r0, v0⟩ mu w * √(2 * mu / g.s / g.s / g.s) = tofX g.lam x N ∧ 0 < w ∧
      (x < 1 → 2 * π * N < √(2 * (1 - x ^ 2) / g.s) * w ∧ √(2 * (1 - x ^ 2) / g.s) * w < 2 * π * (N + 1)) := by
  have hs := S.s_pos
  have hl := S.lam_lt
  obtain ⟨q, hq0, hq⟩ : ∃ q, 0 < q ∧ g.s = 2 * q ^ 2 := ⟨√(g.s / 2), sqrt_pos.2 (by positivity), by
    rw [sq_sqrt (by positivity)]; ring⟩
  have hqs : √(g.s / 2) = q := by rw [hq]; rw [show 2 * q ^ 2 / 2 = q ^ 2 by ring, sqrt_sq hq0.le]
  have hm : √(2 * mu / g.s / g.s / g.s) = √mu / (2 * q ^ 3) := by
    rw [hq, show 2 * mu / (2 * q ^ 2) / (2 * q ^ 2) / (2 * q ^ 2) = mu / (2 * q ^ 3) ^ 2 by field_simp,
      sqrt_div hmu.le, sqrt_sq (by positivity)]
  have hkm := sqrt_pos.2 hmu
  have hη := yOf_sub hl x
  have hid := eta_id hl x
  -- it is enough to find the anomaly
  have main : ∀ w, U1 (2 * (1 - x ^ 2) / g.s) w
        = 2 * (x * yOf g.lam x + g.lam * (1 - x ^ 2)) * (q * (yOf g.lam x - g.lam * x)) →
      U2 (2 * (1 - x ^ 2) / g.s) w = 2 * (q * (yOf g.lam x - g.lam * x)) ^ 2 →
      (2 * g.s * g.lam * (q * (yOf g.lam x - g.lam * x)) + U3 (2 * (1 - x ^ 2) / g.s) w) / (2 * q ^ 3) = tofX g.lam x N →
      0 < w →
      (x < 1 → 2 * π * N < √(2 * (1 - x ^ 2) / g.s) * w ∧ √(2 * (1 - x ^ 2) / g.s) * w < 2 * π * (N + 1)) →
      angMom ⟨r0, v0⟩ ≠ 0 ∧ alphaOf ⟨r0, v0⟩ mu = 2 * (1 - x ^ 2) / g.s ∧
    ∃ w, stateU ⟨r0, v0⟩ mu w = ⟨r1, v1⟩ ∧
      timeU ⟨r0, v0⟩ mu w * √(2 * mu / g.s / g.s / g.s) = tofX g.lam x N ∧ 0 < w ∧
      (x < 1 → 2 * π * N < √(2 * (1 - x ^ 2) / g.s) * w ∧ √(2 * (1 - x ^ 2) / g.s) * w < 2 * π * (N + 1)) := by
    intro w h1 h2 h3 h4 h5
    obtain ⟨a1, a2, a3, a4⟩ := arrive S hmu x hv rfl rfl (w := w) (by rw [hqs]; exact h1) (by rw [hqs]; exact h2)
    refine ⟨a1, a2, w, a3, ?_, h4, h5⟩
    rw [a4, hm, ← h3, hqs]
    field_simp
  rcases lt_trichotomy x 1 with h | h | h
  · obtain ⟨hsn, hcs, p1, p2⟩ := angE_facts hl hx h
    have hw : 0 < 1 - x ^ 2 := by nlinarith
    have hW := sqrt_pos.2 hw
    have hW2 := sq_sqrt hw.le
    have ht : tofX g.lam x N = ((angE g.lam x + N * π) / √(1 - x ^ 2) - x + g.lam * yOf g.lam x) / √(1 - x ^ 2) ^ 2 := by
      unfold tofX tofE; rw [if_pos h, hW2]
    rw [ht] at main ⊢
    obtain ⟨W, hWd⟩ : ∃ W, √(1 - x ^ 2) = W := ⟨_, rfl⟩
    rw [hWd] at hsn hW hW2 main ⊢
    rw [← hW2] at hcs hid main ⊢
    have hb : 2 * W ^ 2 / g.s = (W / q) ^ 2 := by rw [hq]; field_simp
    have hb0 : 0 < W / q := by positivity
    rw [hb, sqrt_sq hb0.le] at main ⊢
    generalize angE g.lam x = A at *
    generalize yOf g.lam x = y at *
    have hsin : sin (A + N * π) ^ 2 = (W * (y - g.lam * x)) ^ 2 := by
      rw [sin_add_nat_mul_pi, mul_pow, hsn, ← pow_mul, mul_comm N 2, pow_mul]; norm_num
    have hsc : sin (A + N * π) * cos (A + N * π) = W * (y - g.lam * x) * (x * y + g.lam * W ^ 2) := by
      rw [sin_add_nat_mul_pi, cos_add_nat_mul_pi, hsn, hcs]
      have : ((-1 : ℝ) ^ N) * (-1) ^ N = 1 := by rw [← pow_add, ← two_mul, pow_mul]; norm_num
      linear_combination (W * (y - g.lam * x) * (x * y + g.lam * W ^ 2)) * this
    have hbw : W / q * (2 * (A + N * π) / (W / q)) = 2 * (A + N * π) := by field_simp
    have hU1 : U1 ((W / q) ^ 2) (2 * (A + N * π) / (W / q)) = 2 * (x * y + g.lam * W ^ 2) * (q * (y - g.lam * x)) := by
      rw [U1_pos hb0, hbw, sin_two_mul, mul_assoc, hsc]; field_simp
    have hpi := pi_pos
    refine main (2 * (A + N * π) / (W / q)) hU1 ?_ ?_ ?_ ?_
    · rw [U2_pos hb0, hbw, cos_two_mul, cos_sq', hsin]; field_simp; ring
    · have hU3 : U3 ((W / q) ^ 2) (2 * (A + N * π) / (W / q)) = (2 * (A + N * π) / (W / q)
          - 2 * (x * y + g.lam * W ^ 2) * (q * (y - g.lam * x))) / (W / q) ^ 2 := by
        rw [← hU1]; unfold U1; field_simp; ring
      rw [hU3, hq]
      have e : g.lam * y - x = (y - g.lam * x) * (g.lam * W ^ 2 - x * y) := hid.symm
      rw [show (A + N * π) / W - x + g.lam * y = (A + N * π) / W + (g.lam * y - x) by ring, e]
      field_simp
      ring
    · positivity
    · intro _
      rw [hbw]
      constructor <;> nlinarith
  · subst h
    have hy : yOf g.lam 1 = 1 := by unfold yOf; simp
    have ht : tofX g.lam 1 N = 2 / 3 * (1 - g.lam ^ 3) := by unfold tofX; simp
    rw [hy] at main hη
    rw [ht] at main ⊢
    have hz : 2 * (1 - (1 : ℝ) ^ 2) / g.s = 0 := by norm_num
    rw [hz] at main ⊢
    refine main (2 * (q * (1 - g.lam))) ?_ ?_ ?_ ?_ (fun h => absurd h (lt_irrefl _))
    · rw [U1_zero]; ring
    · have := U_sq 0 (2 * (q * (1 - g.lam)))
      rw [U1_zero] at this
      linarith
    · have : U3 0 (2 * (q * (1 - g.lam))) = (2 * (q * (1 - g.lam))) ^ 3 / 6 := by
        unfold U3 stumpffS; norm_num; ring
      rw [this, hq]; field_simp; ring
    · have : 0 < 1 - g.lam := by linarith
      positivity
  · have hsn := (angH_facts (l := g.lam) h).1
    have hcs := (angH_facts (l := g.lam) h).2
    have hp := angH_pos hl h
    have hw : 0 < x ^ 2 - 1 := by nlinarith
    have hW := sqrt_pos.2 hw
    have hW2 := sq_sqrt hw.le
    have ht : tofX g.lam x N = (x - g.lam * yOf g.lam x - angH g.lam x / √(x ^ 2 - 1)) / √(x ^ 2 - 1) ^ 2 := by
      unfold tofX tofH; rw [if_neg h.not_gt, if_neg h.ne', hW2]
    rw [ht] at main ⊢
    obtain ⟨W, hWd⟩ : ∃ W, √(x ^ 2 - 1) = W := ⟨_, rfl⟩
    rw [hWd] at hsn hW hW2 main ⊢
    rw [show 1 - x ^ 2 = -(x ^ 2 - 1) by ring, ← hW2] at hcs hid main ⊢
    have hb : 2 * -W ^ 2 / g.s = -(W / q) ^ 2 := by rw [hq]; field_simp
    have hb0 : 0 < W / q := by positivity
    rw [hb] at main ⊢
    generalize angH g.lam x = A at *
    generalize yOf g.lam x = y at *
    have hbw : W / q * (2 * A / (W / q)) = 2 * A := by field_simp
    have hU1 : U1 (-(W / q) ^ 2) (2 * A / (W / q)) = 2 * (x * y + g.lam * -W ^ 2) * (q * (y - g.lam * x)) := by
      rw [U1_neg hb0, hbw, sinh_two_mul, hsn, hcs]; field_simp
    refine main (2 * A / (W / q)) hU1 ?_ ?_ ?_ (fun h' => absurd h' h.not_gt)
    · rw [U2_neg hb0, hbw, cosh_two_mul, cosh_sq, hsn]; field_simp; ring
    · have hU3 : U3 (-(W / q) ^ 2) (2 * A / (W / q)) = (2 * A / (W / q)
          - 2 * (x * y + g.lam * -W ^ 2) * (q * (y - g.lam * x))) / -(W / q) ^ 2 := by
        rw [← hU1]; unfold U1; field_simp; ring
      rw [hU3, hq]
      have e : x - g.lam * y = -((y - g.lam * x) * (g.lam * -W ^ 2 - x * y)) := by rw [hid]; ring
      rw [e]
      field_simp
      ring
    · positivity
end
end Lambert
end Kep3
