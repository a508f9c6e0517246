import Verif.Lambert.Complete

/-!
# C63: existence and uniqueness of the transfer without revolutions; C64: the numbers of revolutions reported
-/

namespace Kep3
open Real V3

namespace Lambert

/-- C63. Between two positions that are not aligned with the centre there is, in each direction and for each time, exactly one
transfer without complete revolutions. -/
theorem C63_unique {r0 r1 : V3 ℝ} {tof mu : ℝ} (cw : Bool) (hz : (cross r0 r1).z ≠ 0) (htof : 0 < tof) (hmu : 0 < mu) :
    ∃! v : V3 ℝ × V3 ℝ, Transfer r0 r1 tof mu cw 0 v.1 v.2 := by
  obtain ⟨g, f, ct, st, rho, sg, hg, S⟩ := geom_spec cw hz
  have hs := S.s_pos
  have hT : 0 < nonDim r0 r1 tof mu := by
    unfold nonDim
    rw [← geom_s hg]
    exact mul_pos (sqrt_pos.2 (by positivity)) htof
  obtain ⟨x, ⟨hx, ht⟩, hu⟩ := tofX_unique S.lam_lt hT
  obtain ⟨v0, v1, hv, -⟩ := orbit S hmu x
  refine ⟨(v0, v1), (transfer_iff S hg hz hmu htof 0 v0 v1).2 ⟨x, hx, .inr rfl, hv, ht⟩, ?_⟩
  rintro ⟨w0, w1⟩ hw
  obtain ⟨x', hx', -, hv', ht'⟩ := (transfer_iff S hg hz hmu htof 0 w0 w1).1 hw
  rw [hu x' ⟨hx', ht'⟩, hv] at hv'
  exact (Option.some.inj hv').symm

/-- C63. An entry of the solution lists whose iterations have ended at a root of the time of flight equation is a transfer in
the requested time and direction with `(k + 1) / 2` revolutions; at index 0 it is the only one without revolutions. -/
theorem C63_solver {j : Junk} {r0 r1 : V3 ℝ} {tof mu : ℝ} {cw : Bool} {m : ℕ} {L : Lambert}
    (h : make j r0 r1 tof mu cw m = .ok L) (hz : (cross r0 r1).z ≠ 0) {k : ℕ} {x : ℝ} (hx : L.x[k]? = some (some x))
    (h1 : -1 < x) (hN : x < 1 ∨ k = 0) (hd : 0.01 ≤ |x - 1|)
    (hroot : x2tof L.lam x ((k + 1) / 2) = some (nonDim r0 r1 tof mu)) :
    ∃ v0 v1, L.v0[k]? = some (some v0) ∧ L.v1[k]? = some (some v1) ∧ Transfer r0 r1 tof mu cw ((k + 1) / 2) v0 v1 ∧
      (k = 0 → ∀ w0 w1, Transfer r0 r1 tof mu cw 0 w0 w1 → w0 = v0 ∧ w1 = v1) := by
  obtain ⟨g, f, ct, st, rho, sg, v0, v1, hg, S, hv, e0, e1, eL, hmu⟩ := make_solution h hz hx
  have htof := (make_inv h).1
  rw [eL, x2tof_exact S.lam_lt hd, if_pos h1, Option.some.injEq] at hroot
  have hT : Transfer r0 r1 tof mu cw ((k + 1) / 2) v0 v1 :=
    (transfer_iff S hg hz hmu htof _ v0 v1).2 ⟨x, h1, hN.imp id fun h => by rw [h], hv, hroot⟩
  refine ⟨v0, v1, e0, e1, hT, ?_⟩
  rintro rfl w0 w1 hw
  obtain ⟨v, -, hu⟩ := C63_unique cw hz htof hmu
  have a := hu (w0, w1) hw
  have b := hu (v0, v1) hT
  have := a.trans b.symm
  simpa using this

/-- C33. `propagate_lagrangian` from the first state of such an entry over the requested time gives its second state. -/
theorem C33_propagator {j : Junk} {r0 r1 : V3 ℝ} {tof mu : ℝ} {cw : Bool} {m : ℕ} {L : Lambert}
    (h : make j r0 r1 tof mu cw m = .ok L) (hz : (cross r0 r1).z ≠ 0) {k : ℕ} {x : ℝ} (hx : L.x[k]? = some (some x))
    (h1 : -1 < x) (hN : x < 1 ∨ k = 0) (hd : 0.01 ≤ |x - 1|)
    (hroot : x2tof L.lam x ((k + 1) / 2) = some (nonDim r0 r1 tof mu)) {sv : Solver} (hsv : sv.Sound) (hq : sv.Quick) :
    ∃ v0 v1, L.v0[k]? = some (some v0) ∧ L.v1[k]? = some (some v1) ∧
      (HypRange ⟨r0, v0⟩ mu tof → propagateLagrangian sv ⟨r0, v0⟩ tof mu = .ok (some ⟨r1, v1⟩)) := by
  obtain ⟨v0, v1, e0, e1, ⟨hs, ⟨γ, hγ, g0, g1⟩, -⟩, -⟩ := C63_solver h hz hx h1 hN hd hroot
  obtain ⟨v0', e0', hE⟩ := C31_energy h hz hx
  obtain rfl : v0 = v0' := by rw [e0] at e0'; simpa using e0'
  have hmu := (make_inv h).2.1
  have hh : angMom ⟨r0, v0⟩ ≠ 0 := by
    intro h0
    have : (cross r0 v0).z = 0 := congrArg V3.z h0
    rw [this] at hs
    split_ifs at hs <;> exact lt_irrefl _ hs
  refine ⟨v0, v1, e0, e1, fun hr => ?_⟩
  have hE0 : energy ⟨r0, v0⟩ mu ≠ 0 := by
    obtain ⟨g, f, ct, st, rho, sg, hg, S⟩ := geom_spec cw hz
    have hsp : 0 < semiPerimeter r0 r1 := by rw [← geom_s hg]; exact S.s_pos
    rw [hE]
    have hne : 1 - x ^ 2 ≠ 0 := fun h0 => by
      have : (1 - x) * (1 + x) = 0 := by linear_combination h0
      rcases mul_eq_zero.1 this with h0 | h0
      · rw [show x - 1 = 0 by linarith] at hd
        norm_num at hd
      · linarith
    have := hmu.ne'
    have := hsp.ne'
    simp only [ne_eq, neg_eq_zero, div_eq_zero_iff, mul_eq_zero, not_or]
    exact ⟨⟨hmu.ne', hne⟩, hsp.ne'⟩
  rcases propagateLagrangian_run hmu hh sv hsv tof hE0 hr with ⟨-, hnq⟩ | h2
  · exact absurd hq hnq
  · rw [h2, ← g1, twoBody_unique hmu hγ (by rw [g0]; exact hh), g0]

theorem T1_lt {l : ℝ} (hl : l ^ 2 < 1) : T1 l < tofX l 0 0 := by
  have h := tofX_strictAnti hl (a := 0) (b := 1) (by simp) (by simp) one_pos
  simp only at h
  have e : tofX l 1 0 = T1 l := by unfold tofX T1; simp; ring
  rwa [e] at h

theorem T1_pos {l : ℝ} (hl : l ^ 2 < 1) : 0 < T1 l := by
  have hb := abs_lt.1 ((sq_lt_one_iff_abs_lt_one l).1 hl)
  unfold T1
  nlinarith [sq_nonneg (l + 1)]

/-- C63, negation. For every pair of positions there is a time of flight, that of the parabola, for which the transfer exists
but the solver returns no velocity (not a number). -/
theorem C63_parabola (j : Junk) {r0 r1 : V3 ℝ} {mu : ℝ} (cw : Bool) (m : ℕ) (hz : (cross r0 r1).z ≠ 0) (hmu : 0 < mu) :
    ∃ tof > 0, (∃ v0 v1, Transfer r0 r1 tof mu cw 0 v0 v1 ∧ energy ⟨r0, v0⟩ mu = 0) ∧
      ∃ L, make j r0 r1 tof mu cw m = .ok L ∧ L.v0[0]? = some none ∧ L.v1[0]? = some none := by
  obtain ⟨g, f, ct, st, rho, sg, hg, S⟩ := geom_spec cw hz
  have hl := S.lam_lt
  have hs : 0 < semiPerimeter r0 r1 := by rw [← geom_s hg]; exact S.s_pos
  have hp : 0 < √(2 * mu / semiPerimeter r0 r1 / semiPerimeter r0 r1 / semiPerimeter r0 r1) :=
    sqrt_pos.2 (by positivity)
  have hT1 := T1_pos hl
  obtain ⟨tof, htof⟩ : ∃ t, nonDim r0 r1 t mu = T1 g.lam := ⟨T1 g.lam / _, by
    unfold nonDim; exact mul_div_cancel₀ _ hp.ne'⟩
  have htof0 : 0 < tof := by
    rw [← htof] at hT1
    unfold nonDim at hT1
    exact (pos_iff_pos_of_mul_pos hT1).1 hp
  refine ⟨tof, htof0, ?_, ?_⟩
  · obtain ⟨v0, v1, hv, hE, -⟩ := orbit S hmu 1
    refine ⟨v0, v1, (transfer_iff S hg hz hmu htof0 0 v0 v1).2 ⟨1, by norm_num, .inr rfl, hv, ?_⟩, ?_⟩
    · rw [htof]; unfold tofX T1; simp; ring
    · rw [hE]; ring
  · have hb := abs_lt.1 ((sq_lt_one_iff_abs_lt_one g.lam).1 hl)
    have hlt : T1 g.lam < 2 := by
      unfold T1
      nlinarith [sq_nonneg (g.lam - 1), sq_nonneg g.lam]
    obtain ⟨L, hL⟩ := C30_accepts j cw m htof0 hmu hz (by rw [htof]; have := pi_gt_three; linarith)
    refine ⟨L, hL, ?_⟩
    obtain ⟨-, -, g', hg', -, hN, hLe⟩ := make_inv hL
    obtain rfl : g = g' := by rw [hg] at hg'; exact Res.ok.inj hg'
    have h5 : g.lam * g.lam * (g.lam * (g.lam * g.lam)) < 1 := by
      have h2 : g.lam * g.lam < 1 := by nlinarith
      have h3 : g.lam * (g.lam * g.lam) < 1 := by nlinarith [sq_nonneg (g.lam + 1)]
      nlinarith [mul_self_nonneg g.lam]
    have hsol : ∃ n rest, solutions j g.lam (T1 g.lam) L.Nmax = (none, n) :: rest := by
      unfold solutions householderN guess0
      rw [T00_eq hl]
      simp only [Option.bind_eq_bind, Option.bind_some]
      rw [if_neg (not_le.2 (T1_lt hl)), if_pos le_rfl, sub_self, mul_zero, div?_ok (by
        have : 0 < 1 - g.lam * g.lam * (g.lam * (g.lam * g.lam)) := by linarith
        positivity), zero_div]
      simp only [Option.map_some, zero_add]
      unfold householder householderStep
      rw [C32_parabola]
      exact ⟨_, _, rfl⟩
    obtain ⟨n, rest, hsol⟩ := hsol
    rw [hLe]
    simp only [htof, hsol]
    exact ⟨rfl, rfl⟩

section
variable {l : ℝ} (hl : l ^ 2 < 1)
include hl

theorem tofX_zero_lt (i : ℕ) : tofX l 0 i < (i + 1) * π := by
  have h := tofE_diff hl (x := 0) (by norm_num) (by norm_num) i
  simp only [arccos_zero, cos_pi_div_two, mul_zero, sub_zero] at h
  norm_num at h
  have hb := abs_lt.1 ((sq_lt_one_iff_abs_lt_one l).1 hl)
  have hm := hE_strictMono (neg_pi_div_two_lt_arcsin.2 hb.1)
  simp only [sin_neg, cos_neg, cos_pi_div_two, mul_zero, sub_zero] at hm
  unfold tofX
  rw [if_pos one_pos, h]
  linarith

/-- With revolutions the time of flight grows without bound on both sides. -/
theorem tofX_left (i : ℕ) (T : ℝ) : ∃ x, -1 < x ∧ x < 0 ∧ T < tofX l x i := by
  obtain ⟨x, h1, h2, h3⟩ := tofX_large hl (max T (tofX l 0 0) + 1)
  have hx : x < 0 := by
    by_contra hc
    have := (tofX_strictAnti hl).antitoneOn (a := 0) (b := x) (by simp) h1 (not_lt.1 hc)
    linarith [le_max_right T (tofX l 0 0)]
  refine ⟨x, h1, hx, ?_⟩
  have hle : tofX l x 0 ≤ tofX l x i := by
    unfold tofX
    rw [if_pos h2, if_pos h2]
    unfold tofE
    have hw : 0 < 1 - x ^ 2 := by nlinarith
    have hW := sqrt_pos.2 hw
    have hpi := pi_pos
    simp only [Nat.cast_zero, zero_mul, add_zero]
    have : angE l x / √(1 - x ^ 2) ≤ (angE l x + i * π) / √(1 - x ^ 2) := by
      apply div_le_div_of_nonneg_right _ hW.le
      have : 0 ≤ (i : ℝ) * π := by positivity
      linarith
    apply div_le_div_of_nonneg_right _ hw.le
    linarith
  linarith [le_max_left T (tofX l 0 0)]

/-- The time of flight with revolutions exceeds that of the revolutions. -/
theorem tofE_gt {x : ℝ} (h1 : -1 < x) (h2 : x < 1) (i : ℕ) : i * π < tofE l x i * √(1 - x ^ 2) ^ 3 := by
  have h := tofE_diff hl h1 h2 i
  have hlt : arcsin (l * √(1 - x ^ 2)) < arccos x := by
    have := (angE_facts hl h1 h2).2.2.1
    unfold angE at this; linarith
  have hm := hE_strictMono hlt
  simp only at hm
  linarith

theorem tofX_right {i : ℕ} (hi : 1 ≤ i) {T : ℝ} (hT : 0 < T) : ∃ x, 0 < x ∧ x < 1 ∧ T < tofX l x i := by
  have hpi := pi_pos
  obtain ⟨w, hw⟩ : ∃ w, w = min (1 / 2) (π / T) := ⟨_, rfl⟩
  have hw0 : 0 < w := by rw [hw]; positivity
  have hw1 : w ≤ 1 / 2 := by rw [hw]; exact min_le_left _ _
  have hw2 : w * T ≤ π := by rw [← le_div_iff₀ hT, hw]; exact min_le_right _ _
  have hq : 0 < 1 - w ^ 2 := by nlinarith
  have hx0 : 0 < √(1 - w ^ 2) := sqrt_pos.2 hq
  have hx1 : √(1 - w ^ 2) < 1 := by rw [sqrt_lt' one_pos]; nlinarith
  refine ⟨√(1 - w ^ 2), hx0, hx1, ?_⟩
  have h := tofE_gt hl (by linarith) hx1 i
  rw [sq_sqrt hq.le, show 1 - (1 - w ^ 2) = w ^ 2 by ring, sqrt_sq hw0.le] at h
  unfold tofX
  rw [if_pos hx1]
  have hi' : (1 : ℝ) ≤ i := by exact_mod_cast hi
  have hw3 : w ^ 3 ≤ w := by nlinarith [mul_pos hw0 hw0]
  have : T * w ^ 3 < tofE l √(1 - w ^ 2) i * w ^ 3 := by nlinarith
  exact lt_of_mul_lt_mul_right this (by positivity)

/-- Two roots for a time of flight above that at `x = 0`. -/
theorem two_roots {i : ℕ} (hi : 1 ≤ i) {T : ℝ} (hT : tofX l 0 i < T) :
    ∃ x x', -1 < x ∧ x < 0 ∧ 0 < x' ∧ x' < 1 ∧ tofX l x i = T ∧ tofX l x' i = T := by
  have hT0 : 0 < T := by
    have := tofE_pos hl (x := 0) (by norm_num) (by norm_num) i
    unfold tofX at hT; rw [if_pos one_pos] at hT
    linarith
  obtain ⟨a, a1, a2, a3⟩ := tofX_left hl i T
  obtain ⟨b, b1, b2, b3⟩ := tofX_right hl hi hT0
  have hc : ∀ x, -1 < x → x < 1 → ContinuousAt (fun x => tofX l x i) x := fun x h1 h2 =>
    (hasDerivAt_tofX_lt hl h1 h2 i).continuousAt
  obtain ⟨x, hx, e1⟩ := intermediate_value_Ioo' a2.le (f := fun x => tofX l x i)
    (fun x hx => (hc x (by linarith [hx.1]) (by linarith [hx.2])).continuousWithinAt) ⟨hT, a3⟩
  obtain ⟨x', hx', e2⟩ := intermediate_value_Ioo b1.le (f := fun x => tofX l x i)
    (fun x hx => (hc x (by linarith [hx.1]) (by linarith [hx.2])).continuousWithinAt) ⟨hT, b3⟩
  exact ⟨x, x', by linarith [hx.1], hx.2, hx'.1, by linarith [hx'.2], e1, e2⟩
end

/-- C64 (partial). A number of revolutions reported has two different transfers, if one more half-period of the
revolution fits into the time of flight. Missing: the largest number of revolutions, for which the answer of the Halley iterations
is not always right, see `C64_spurious`. -/
theorem C64_revolutions_partial {j : Junk} {r0 r1 : V3 ℝ} {tof mu : ℝ} {cw : Bool} {m : ℕ} {L : Lambert}
    (h : make j r0 r1 tof mu cw m = .ok L) (hz : (cross r0 r1).z ≠ 0) {i : ℕ} (hi : 1 ≤ i)
    (hT : (i + 1) * π ≤ nonDim r0 r1 tof mu ∨ ∃ T0, T00 L.lam = some T0 ∧ T0 + i * π < nonDim r0 r1 tof mu) :
    ∃ v0 v1 w0 w1, v0 ≠ w0 ∧ Transfer r0 r1 tof mu cw i v0 v1 ∧ Transfer r0 r1 tof mu cw i w0 w1 := by
  obtain ⟨htof, hmu, g, hg, hs, hN, hLe⟩ := make_inv h
  obtain ⟨g', f, ct, st, rho, sg, hg', S⟩ := geom_spec cw hz
  obtain rfl : g = g' := by rw [hg] at hg'; exact Res.ok.inj hg'
  have hl := S.lam_lt
  have hlt : tofX g.lam 0 i < nonDim r0 r1 tof mu := by
    rcases hT with hT | ⟨T0, e, hT⟩
    · exact (tofX_zero_lt hl i).trans_le hT
    · rw [show L.lam = g.lam by rw [hLe], T00_eq hl, Option.some.injEq] at e
      have : tofX g.lam 0 i = tofX g.lam 0 0 + i * π := by
        unfold tofX; rw [if_pos one_pos, if_pos one_pos]
        unfold tofE; simp; ring
      rw [this, e]; exact hT
  obtain ⟨x, x', x1, x2, x3, x4, e1, e2⟩ := two_roots hl hi hlt
  obtain ⟨v0, v1, hv, hE, -⟩ := orbit S hmu x
  obtain ⟨w0, w1, hw, -⟩ := orbit S hmu x'
  refine ⟨v0, v1, w0, w1, ?_, (transfer_iff S hg hz hmu htof i v0 v1).2 ⟨x, x1, .inl (by linarith), hv, e1⟩,
    (transfer_iff S hg hz hmu htof i w0 w1).2 ⟨x', by linarith, .inl x4, hw, e2⟩⟩
  -- different tangential velocities
  intro he
  have q1 := velocities_ok S hmu x
  have q2 := velocities_ok S hmu x'
  rw [hv, Option.some.injEq, Prod.mk.injEq] at q1
  rw [hw, Option.some.injEq, Prod.mk.injEq] at q2
  have hRs := S.Rs_pos
  have hga : 0 < √(mu * g.s / 2) := sqrt_pos.2 (by have := S.s_pos; positivity)
  have hsg := S.sg_pos
  have t1 : dot v0 f.its = √(mu * g.s / 2) * sg * (yOf g.lam x + g.lam * x) / g.Rs := by
    rw [q1.1]; simp only [add_dot, smul_dot, S.tt, S.ut]; ring
  have t2 : dot w0 f.its = √(mu * g.s / 2) * sg * (yOf g.lam x' + g.lam * x') / g.Rs := by
    rw [q2.1]; simp only [add_dot, smul_dot, S.tt, S.ut]; ring
  rw [he, t2] at t1
  have e3 : yOf g.lam x' + g.lam * x' = yOf g.lam x + g.lam * x := by
    have := (div_left_inj' hRs.ne').1 t1
    exact mul_left_cancel₀ (by positivity) this
  have y1 := yOf_sq hl x
  have y2 := yOf_sq hl x'
  have p1 := yOf_add hl x
  have e4 : yOf g.lam x' - g.lam * x' = yOf g.lam x - g.lam * x := by
    apply mul_left_cancel₀ p1.ne'
    rw [← e3]
    nlinarith
  have : g.lam * (x' - x) = 0 := by linarith
  rcases mul_eq_zero.1 this with h | h
  · exact S.lam_ne hz h
  · linarith

/-- Every negative value of `lambda` belongs to a pair of positions. -/
theorem geom_lam {l : ℝ} (h1 : -1 < l) (h2 : l < 0) :
    ∃ r0 r1 g f ct st rho sg, (cross r0 r1).z ≠ 0 ∧ geom r0 r1 true = .ok g ∧ Spec r0 r1 true g f ct st rho sg ∧ g.lam = l := by
  obtain ⟨s, hs⟩ : ∃ s, s = (1 - l ^ 2) / (1 + l ^ 2) := ⟨_, rfl⟩
  have hl2 : l ^ 2 < 1 := by nlinarith
  have hl0 : 0 < l ^ 2 := by nlinarith
  have hs0 : 0 < s := by rw [hs]; exact div_pos (by linarith) (by positivity)
  have hs1 : s < 1 := by rw [hs, div_lt_one (by positivity)]; linarith
  have hq : 0 < 1 - s ^ 2 := by nlinarith
  have hq2 := sq_sqrt hq.le
  have hq0 := sqrt_pos.2 hq
  obtain ⟨c, hc⟩ : ∃ c, c = √(1 - s ^ 2) := ⟨_, rfl⟩
  rw [← hc] at hq2 hq0
  obtain ⟨r0, hr0⟩ : ∃ r0 : V3 ℝ, r0 = ⟨1, 0, 0⟩ := ⟨_, rfl⟩
  obtain ⟨r1, hr1⟩ : ∃ r1 : V3 ℝ, r1 = ⟨1 - 2 * s ^ 2, 2 * s * c, 0⟩ := ⟨_, rfl⟩
  have hcz : (cross r0 r1).z = 2 * s * c := by rw [hr0, hr1]; simp
  have hz : (cross r0 r1).z ≠ 0 := by rw [hcz]; positivity
  obtain ⟨g, f, ct, st, rho, sg, hg, S⟩ := geom_spec true hz
  refine ⟨r0, r1, g, f, ct, st, rho, sg, hz, hg, S, ?_⟩
  have n0 : norm r0 = 1 := norm_one (by rw [hr0]; norm_num [dot])
  have n1 : norm r1 = 1 := norm_one (by rw [hr1]; simp only [dot]; linear_combination 4 * s ^ 2 * hq2)
  have nc : norm (r1 - r0) = 2 * s := by
    unfold V3.norm
    rw [hr0, hr1]
    have : dot ((⟨1 - 2 * s ^ 2, 2 * s * c, 0⟩ : V3 ℝ) - ⟨1, 0, 0⟩) (⟨1 - 2 * s ^ 2, 2 * s * c, 0⟩ - ⟨1, 0, 0⟩) = (2 * s) ^ 2 := by
      simp [dot]; linear_combination 4 * s ^ 2 * hq2
    rw [this, sqrt_sq (by positivity)]
  have gs : g.s = 1 + s := by rw [geom_s hg]; unfold semiPerimeter; rw [nc, n0, n1]; ring
  have gc : g.c = 2 * s := by
    unfold geom at hg
    simp only at hg
    split_ifs at hg
    simp only [Res.ok.injEq] at hg
    rw [← hg]; exact nc
  have hceq := S.c_eq
  rw [gc, gs] at hceq
  have hll : g.lam ^ 2 = l ^ 2 := by
    have e : (1 + s) * (1 + l ^ 2) = 2 := by rw [hs]; field_simp; ring
    have e2 : s * (1 + l ^ 2) = 1 - l ^ 2 := by rw [hs]; field_simp
    nlinarith
  have hneg : g.lam < 0 := by
    have e : (cross r0 r1).z = g.Rs * g.Rf * st * (cross f.irs f.its).z := by
      rw [S.r0_eq, S.r1_eq, S.irf_eq]; simp; ring
    have hse := S.sense
    simp only [if_true] at hse
    have hsin : g.Rs * g.Rf * st < 0 := by
      have : 0 < g.Rs * g.Rf * st * (cross f.irs f.its).z := by rw [← e, hcz]; positivity
      by_contra hc
      have := mul_nonpos_of_nonneg_of_nonpos (not_lt.1 hc) hse.le
      linarith
    rw [S.sin_eq] at hsin
    by_contra hc
    have h3 := not_lt.1 hc
    have : 0 ≤ g.s ^ 2 * g.lam * (1 - g.lam ^ 2) * sg := by
      have := S.sg_pos
      have : 0 < 1 - g.lam ^ 2 := by linarith [S.lam_lt]
      positivity
    linarith
  have : (g.lam - l) * (g.lam + l) = 0 := by linear_combination hll
  rcases mul_eq_zero.1 this with h | h
  · linarith
  · linarith

/-- A geometry for which the first Halley iterate is left of -1. -/
theorem bad_lam : ∃ l : ℝ, -1 < l ∧ l < 0 ∧ 3 * (tofX l 0 0 + π) + 2 * l ^ 3 / √(1 - l ^ 2) = 7 / 2 := by
  obtain ⟨F, hF⟩ : ∃ F : ℝ → ℝ, F = fun l => 3 * (arccos l + l * √(1 - l ^ 2) + π) + 2 * l ^ 3 / √(1 - l ^ 2) := ⟨_, rfl⟩
  have hpi := pi_gt_three
  have hpi2 := pi_lt_d2
  obtain ⟨a, ha⟩ : ∃ a : ℝ, a = -√0.99 := ⟨_, rfl⟩
  have ha2 : a ^ 2 = 0.99 := by rw [ha, neg_sq, sq_sqrt (by norm_num)]
  have ha0 : a < 0 := by rw [ha]; have := sqrt_pos.2 (by norm_num : (0 : ℝ) < 0.99); linarith
  have ha1 : -1 < a := by nlinarith
  have ha3 : a ≤ -0.99 := by nlinarith
  have hcont : ContinuousOn F (Set.Icc a 0) := by
    rw [hF]
    intro x hx
    have : 0 < 1 - x ^ 2 := by nlinarith [hx.1, hx.2]
    have h1 : √(1 - x ^ 2) ≠ 0 := (sqrt_pos.2 this).ne'
    apply ContinuousAt.continuousWithinAt
    refine ContinuousAt.add ?_ (ContinuousAt.div (by fun_prop) (by fun_prop) h1)
    have := continuous_arccos.continuousAt (x := x)
    fun_prop
  have hFa : F a < 7 / 2 := by
    rw [hF]
    simp only
    have h1 : √(1 - a ^ 2) = 0.1 := by
      rw [ha2, show (1 - 0.99 : ℝ) = 0.1 ^ 2 by norm_num, sqrt_sq (by norm_num)]
    rw [h1]
    have h2 := arccos_le_pi a
    have h3 : a ^ 3 = 0.99 * a := by rw [pow_succ, ha2]
    rw [h3]
    norm_num
    linarith
  have hF0 : 7 / 2 < F 0 := by
    rw [hF]; simp; linarith
  obtain ⟨l, hl, he⟩ := intermediate_value_Ioo ha0.le hcont ⟨hFa, hF0⟩
  have hl1 : -1 < l := by linarith [hl.1]
  refine ⟨l, hl1, hl.2, ?_⟩
  rw [hF] at he
  simp only at he
  have h2 : l ^ 2 < 1 := by nlinarith [hl.2]
  have e := T00_eq h2
  unfold T00 at e
  rw [acos?_ok ⟨hl1.le, by linarith [hl.2]⟩, sqrt?_ok (by nlinarith)] at e
  simp only [Option.bind_eq_bind, Option.bind_some, Option.pure_def, Option.some.injEq] at e
  rw [← e, ← pow_two]
  exact he

/-- C64, negation. There are positions and a time of flight for which the solver reports a transfer with a complete revolution
although there is none. -/
theorem C64_spurious : ∃ (r0 r1 : V3 ℝ) (tof : ℝ), 0 < tof ∧ (cross r0 r1).z ≠ 0 ∧
    (∀ v0 v1, ¬ Transfer r0 r1 tof 1 true 1 v0 v1) ∧
    ∀ j : Junk, ∃ L, make j r0 r1 tof 1 true 1 = .ok L ∧ L.Nmax = 1 := by
  obtain ⟨l, hl1, hl2, hbad⟩ := bad_lam
  obtain ⟨r0, r1, g, f, ct, st, rho, sg, hz, hg, S, rfl⟩ := geom_lam hl1 hl2
  have hl := S.lam_lt
  have hpi := pi_pos
  have hs : 0 < semiPerimeter r0 r1 := by rw [← geom_s hg]; exact S.s_pos
  have hp : 0 < √(2 * 1 / semiPerimeter r0 r1 / semiPerimeter r0 r1 / semiPerimeter r0 r1) :=
    sqrt_pos.2 (by positivity)
  obtain ⟨tof, htof⟩ : ∃ t, nonDim r0 r1 t 1 = π := ⟨π / _, by
    unfold nonDim; exact mul_div_cancel₀ _ hp.ne'⟩
  have htof0 : 0 < tof := by
    have h : 0 < nonDim r0 r1 tof 1 := by rw [htof]; exact hpi
    unfold nonDim at h
    exact (pos_iff_pos_of_mul_pos h).1 hp
  refine ⟨r0, r1, tof, htof0, hz, ?_, ?_⟩
  · intro v0 v1 hT
    obtain ⟨x, h1, h2, -, ht⟩ := (transfer_iff S hg hz one_pos htof0 1 v0 v1).1 hT
    rcases h2 with h2 | h2
    · rw [htof] at ht
      unfold tofX at ht
      rw [if_pos h2] at ht
      have h := tofE_gt hl h1 h2 1
      rw [ht] at h
      have hw : √(1 - x ^ 2) ≤ 1 := by rw [sqrt_le_left (by norm_num)]; nlinarith
      have hw3 : √(1 - x ^ 2) ^ 3 ≤ 1 := pow_le_one₀ (sqrt_nonneg _) hw
      push_cast at h
      nlinarith
    · exact absurd h2 one_ne_zero
  · intro j
    have hn : nmax j g.lam π 1 = .ok 1 := by
      unfold nmax
      rw [if_neg (by rw [div_self hpi.ne']; norm_num), div_self hpi.ne']
      simp only [Nat.floor_one, min_self]
      rw [if_pos one_pos, T00_eq hl]
      simp only [Option.map_some]
      have hT0 : 0 < tofX g.lam 0 0 := by
        have := tofE_pos hl (x := 0) (by norm_num) (by norm_num) 0
        unfold tofX; rwa [if_pos one_pos]
      rw [if_pos (by push_cast; linarith)]
      have hy0 : yOf g.lam 0 = √(1 - g.lam ^ 2) := by unfold yOf; simp
      have hw : 0 < 1 - g.lam ^ 2 := by linarith
      have hW := sqrt_pos.2 hw
      have hW2 := sq_sqrt hw.le
      have D1 : d1 g.lam 0 (tofX g.lam 0 0 + (1 : ℕ) * π) = -2 := by unfold d1; simp
      have D2 : d2 g.lam 0 (tofX g.lam 0 0 + (1 : ℕ) * π) = 7 / 2 := by
        rw [← hbad]
        unfold d2
        rw [D1, hy0]
        push_cast
        have e : 2 * (1 - g.lam ^ 2) * g.lam ^ 3 / √(1 - g.lam ^ 2) ^ 3 = 2 * g.lam ^ 3 / √(1 - g.lam ^ 2) := by
          nth_rewrite 1 [← hW2]
          field_simp
        rw [e]; ring
      have D3 : d3 g.lam 0 (tofX g.lam 0 0 + (1 : ℕ) * π) = -16 := by
        unfold d3; rw [D1]; norm_num
      have hh : halley g.lam 1 13 0 (tofX g.lam 0 0 + (1 : ℕ) * π) = .nan := by
        unfold halley
        rw [dTdx_eq hl (by norm_num), D1, D2, D3]
        simp only
        rw [if_pos (by norm_num), div?_ok (by norm_num)]
        simp only [Option.map_some]
        rw [if_neg (by norm_num [abs_of_nonneg])]
        rw [x2tof_exact hl (by norm_num [abs_of_nonneg, abs_of_neg]), if_neg (by norm_num)]
        simp only
        rw [if_pos (by norm_num)]
      rw [hh]
      simp
    refine ⟨_, by
      unfold make
      rw [if_neg (not_le.2 htof0), if_neg (not_le.2 one_pos), hg, Res.ok_bind, if_neg S.s_pos.ne']
      have hT : √(2 * 1 / g.s / g.s / g.s) * tof = π := by rw [geom_s hg]; exact htof
      simp only [hT, hn, Res.ok_bind]
      rfl, rfl⟩

end Lambert
end Kep3
