import Verif.Lambert.Props30

/-!
# C32: the time of flight formulas agree and `dTdx` is their derivative; C33: converged solutions fly the transfer
-/

namespace Kep3
open Real V3 Filter Topology

namespace Lambert

section
variable {l : ℝ} (hl : l ^ 2 < 1)
include hl

theorem lancaster_some {x : ℝ} (h1 : -1 < x) (hne : x ≠ 1) (N : ℕ) : x2tofLancaster l x N = some (tofX l x N) := by
  rcases lt_or_gt_of_ne hne with h | h
  · exact lancaster_ell hl h1 h N
  · exact lancaster_hyp hl h N
theorem lagrange_some {x : ℝ} (h1 : -1 < x) (hne : x ≠ 1) (N : ℕ) : x2tof2 l x N = some (tofX l x N) := by
  rcases lt_or_gt_of_ne hne with h | h
  · exact lagrange_ell hl h1 h N
  · exact lagrange_hyp h N
theorem hasDerivAt_tofX {x : ℝ} (h1 : -1 < x) (hne : x ≠ 1) (N : ℕ) :
    HasDerivAt (fun x => tofX l x N) (d1 l x (tofX l x N)) x := by
  rcases lt_or_gt_of_ne hne with h | h
  · exact hasDerivAt_tofX_lt hl h1 h N
  · exact hasDerivAt_tofX_gt hl h N

/-- C32. The expressions of Lagrange and of Lancaster are the same function of `x`, and `dTdx`, given its value, returns its
first three derivatives. -/
theorem C32_formulas (N : ℕ) : ∃ T T' T'' T''' : ℝ → ℝ, ∀ x, -1 < x → x ≠ 1 →
    x2tof2 l x N = some (T x) ∧ x2tofLancaster l x N = some (T x) ∧ dTdx l x (T x) = some (T' x, T'' x, T''' x) ∧
      HasDerivAt T (T' x) x ∧ HasDerivAt T' (T'' x) x ∧ HasDerivAt T'' (T''' x) x := by
  refine ⟨fun x => tofX l x N, fun x => d1 l x (tofX l x N), fun x => d2 l x (tofX l x N),
    fun x => d3 l x (tofX l x N), fun x h1 hne => ?_⟩
  have hx : 1 - x ^ 2 ≠ 0 := fun h => by
    have : (1 - x) * (1 + x) = 0 := by linear_combination h
    rcases mul_eq_zero.1 this with h | h
    · exact hne (by linarith)
    · linarith
  have hd := hasDerivAt_tofX hl h1 hne N
  exact ⟨lagrange_some hl h1 hne N, lancaster_some hl h1 hne N, dTdx_eq hl hx _, hd,
    hasDerivAt_d1 hl hx hd, hasDerivAt_d2 hl hx hd⟩

/-- C32. `x2tof` equals them outside of the neighbourhood of the parabola, on both sides of every boundary between its
branches, and is within 1e-10 of them there. -/
theorem C32_x2tof {x : ℝ} (h1 : -1 < x) (hne : x ≠ 1) {N : ℕ} (hN : x < 1 ∨ N = 0) :
    ∃ T T0, x2tof l x N = some T ∧ x2tofLancaster l x N = some T0 ∧ |T - T0| ≤ 1e-10 ∧ (0.01 ≤ |x - 1| → T = T0) := by
  by_cases hd : |x - 1| < 0.01
  · obtain ⟨T, hT, he⟩ := battin hl hd hne hN
    refine ⟨T, _, ?_, lancaster_some hl h1 hne N, he, fun h => absurd hd (not_lt.2 h)⟩
    unfold x2tof
    simp only
    rw [if_neg (fun h => absurd h.2 (not_lt.2 hd.le)), if_pos hd]
    exact hT
  · have hd' := not_lt.1 hd
    refine ⟨_, _, by rw [x2tof_exact hl hd', if_pos h1], lancaster_some hl h1 hne N, ?_, fun _ => rfl⟩
    rw [sub_self, abs_zero]; norm_num

omit hl in
/-- C32, negation. On the parabola itself no time of flight is returned (zero over zero). -/
theorem C32_parabola (N : ℕ) : x2tof l 1 N = none := by
  unfold x2tof
  simp only [sub_self, abs_zero]
  rw [if_neg (by norm_num), if_pos (by norm_num)]
  unfold x2tofBattin
  have : div? ((N : ℝ) * π) (|1 * 1 - 1| ^ (1.5 : ℝ)) = none := by
    unfold div?
    rw [if_pos]
    rw [show |(1 : ℝ) * 1 - 1| = 0 by norm_num]
    exact zero_rpow (by norm_num)
  simp only [this, Option.bind_eq_bind, Option.bind_none, Option.bind_fun_none]

/-- C32, negation. With revolutions the expressions differ on the hyperbolic side: next to the parabola `x2tof` counts
the revolutions, farther away it does not, so that it jumps by more than `N`. -/
theorem C32_jump {N : ℕ} (hN : 0 < N) {x : ℝ} (hx : 1 < x) (hx' : x < 1.01) :
    ∃ T T0, x2tof l x N = some T ∧ x2tof2 l x N = some T0 ∧ T0 + N < T := by
  have hd : |x - 1| < 0.01 := by rw [abs_lt]; constructor <;> linarith
  obtain ⟨T, hT, he⟩ := battin hl hd hx.ne' (N := 0) (.inr rfl)
  have hr : 0 < |x * x - 1| := abs_pos.2 (by nlinarith)
  have hr1 : |x * x - 1| < 1 := by rw [abs_lt]; constructor <;> nlinarith
  have hp : 0 < |x * x - 1| ^ (1.5 : ℝ) := rpow_pos_of_pos hr _
  have hp1 : |x * x - 1| ^ (1.5 : ℝ) < 1 := rpow_lt_one hr.le hr1 (by norm_num)
  have hB : x2tofBattin l x N = some (T + N * π / |x * x - 1| ^ (1.5 : ℝ)) := by
    unfold x2tofBattin at hT ⊢
    simp only [div?_ok hp.ne', Option.bind_eq_bind, Option.bind_some, Option.pure_def] at hT ⊢
    cases h1 : sqrt? (1 + l * l * (x * x - 1)) with
    | none => rw [h1] at hT; simp at hT
    | some z =>
      rw [h1] at hT
      simp only [Option.bind_some] at hT ⊢
      cases h2 : hypergeometricF (0.5 * (1 - l - x * (z - l * x))) 1e-11 with
      | none => rw [h2] at hT; simp at hT
      | some q =>
        rw [h2] at hT
        simp only [Option.bind_some, Option.some.injEq, Nat.cast_zero, zero_mul, zero_div, add_zero] at hT ⊢
        rw [hT]
  refine ⟨T + N * π / |x * x - 1| ^ (1.5 : ℝ), _, ?_, lagrange_hyp hx N, ?_⟩
  · unfold x2tof
    simp only
    rw [if_neg (fun h => absurd h.2 (not_lt.2 hd.le)), if_pos hd, hB]
  · have e : tofX l x N = tofX l x 0 := by unfold tofX; rw [if_neg hx.not_gt, if_neg hx.not_gt]
    rw [e]
    have hN' : (1 : ℝ) ≤ N := by exact_mod_cast hN
    have h3 := pi_gt_three
    have : (N : ℝ) * π ≤ N * π / |x * x - 1| ^ (1.5 : ℝ) := by
      rw [le_div_iff₀ hp]
      nlinarith [mul_pos (by linarith : (0 : ℝ) < N) pi_pos]
    have := (abs_le.1 he).1
    nlinarith

end

/-- C32 for a transfer over more than half a turn, at an elliptic and at a hyperbolic orbit. -/
theorem C32_example : ∃ T T0, x2tof (-1 / 2) (1 / 4) 2 = some T ∧ x2tofLancaster (-1 / 2) (1 / 4) 2 = some T0 ∧ T = T0 := by
  obtain ⟨T, T0, h1, h2, -, h4⟩ := C32_x2tof (l := -1 / 2) (by norm_num) (x := 1 / 4) (by norm_num) (by norm_num) (N := 2)
    (.inl (by norm_num))
  exact ⟨T, T0, h1, h2, h4 (by norm_num [abs_of_neg])⟩

/-- The value of the iteration variable at index `k` comes from the iterations on the time of flight with `(k + 1) / 2`
revolutions. -/
theorem solutions_get (j : Junk) (lam T : ℝ) {Nm k : ℕ} (hk : k < 2 * Nm + 1) :
    ∃ eps e x0, (solutions j lam T Nm)[k]? = some (householderN lam T ((k + 1) / 2) eps e x0) ∧
      (eps = 1e-5 ∨ eps = 1e-8) := by
  have hm : ∀ n i, (((List.range n).flatMap (multi j lam T))[2 * i]? =
        if i < n then some (householderN lam T (i + 1) 1e-8 (j.extra (2 * i + 1)) (guessL T (i + 1))) else none) ∧
      (((List.range n).flatMap (multi j lam T))[2 * i + 1]? =
        if i < n then some (householderN lam T (i + 1) 1e-8 (j.extra (2 * i + 2)) (guessR T (i + 1))) else none) := by
    intro n
    have hlen : ∀ n, ((List.range n).flatMap (multi j lam T)).length = 2 * n := by
      intro n
      have := solutions_length j lam T n
      unfold solutions at this
      simp only [List.length_cons] at this
      omega
    induction n with
    | zero => intro i; simp
    | succ n ih =>
      intro i
      rw [List.range_succ, List.flatMap_append]
      have hs : List.flatMap (multi j lam T) [n] = multi j lam T n := by simp
      rw [hs]
      rcases lt_trichotomy i n with h | h | h
      · rw [List.getElem?_append_left (by rw [hlen]; omega), List.getElem?_append_left (by rw [hlen]; omega)]
        rw [if_pos (by omega), if_pos (by omega)]
        have := ih i
        rwa [if_pos h, if_pos h] at this
      · rw [List.getElem?_append_right (by rw [hlen]; omega), List.getElem?_append_right (by rw [hlen]; omega), hlen, h,
          Nat.sub_self, Nat.add_sub_cancel_left, if_pos (by omega), if_pos (by omega)]
        exact ⟨rfl, rfl⟩
      · rw [if_neg (by omega), if_neg (by omega)]
        have hl2 : ((List.range n).flatMap (multi j lam T) ++ multi j lam T n).length = 2 * n + 2 := by
          rw [List.length_append, hlen]; rfl
        rw [List.getElem?_eq_none (by rw [hl2]; omega), List.getElem?_eq_none (by rw [hl2]; omega)]
        exact ⟨rfl, rfl⟩
  unfold solutions
  rcases k with _ | k
  · exact ⟨_, _, _, rfl, .inl rfl⟩
  · rw [List.getElem?_cons_succ]
    obtain ⟨h1, h2⟩ := hm Nm (k / 2)
    rcases Nat.mod_two_eq_zero_or_one k with hp | hp
    · rw [show 2 * (k / 2) = k by omega] at h1
      rw [h1, if_pos (by omega), show (k + 1 + 1) / 2 = k / 2 + 1 by omega]
      exact ⟨_, _, _, rfl, .inr rfl⟩
    · rw [show 2 * (k / 2) + 1 = k by omega] at h2
      rw [h2, if_pos (by omega), show (k + 1 + 1) / 2 = k / 2 + 1 by omega]
      exact ⟨_, _, _, rfl, .inr rfl⟩

/-- C33. The motion from the first state of the solution with index `k` arrives at the second one after a time `t` that, in
the unit of the solver, differs from the value of the time of flight function with `(k + 1) / 2` revolutions by at most
1e-10, and not at all away from the parabola; on an ellipse exactly `(k + 1) / 2` revolutions are completed. -/
theorem C33_flies {j : Junk} {r0 r1 : V3 ℝ} {tof mu : ℝ} {cw : Bool} {m : ℕ} {L : Lambert}
    (h : make j r0 r1 tof mu cw m = .ok L) (hz : (cross r0 r1).z ≠ 0) {k : ℕ} {x : ℝ} (hx : L.x[k]? = some (some x))
    (h1 : -1 < x) :
    ∃ v0 v1 t, L.v0[k]? = some (some v0) ∧ L.v1[k]? = some (some v1) ∧ 0 < t ∧
      (∀ γ, TwoBody mu γ → γ 0 = ⟨r0, v0⟩ → γ t = ⟨r1, v1⟩) ∧
      (x < 1 → ∃ a, energy ⟨r0, v0⟩ mu = -(mu / (2 * a)) ∧ 0 < a ∧
        ((k + 1) / 2 : ℕ) * (2 * π * √(a ^ 3 / mu)) < t ∧ t < (((k + 1) / 2 : ℕ) + 1) * (2 * π * √(a ^ 3 / mu))) ∧
      (x < 1 ∨ k = 0 → ∀ T, x2tof L.lam x ((k + 1) / 2) = some T →
        |nonDim r0 r1 t mu - T| ≤ 1e-10 ∧ (0.01 ≤ |x - 1| → nonDim r0 r1 t mu = T)) := by
  obtain ⟨g, f, ct, st, rho, sg, v0, v1, hg, S, hv, e0, e1, eL, hmu⟩ := make_solution h hz hx
  obtain ⟨hh, ha, w, hw1, hw2, hw0, hw3⟩ := reach S hmu h1 ((k + 1) / 2) hv
  have hs := S.s_pos
  have hmono := timeU_strictMono hmu hh
  refine ⟨v0, v1, timeU ⟨r0, v0⟩ mu w, e0, e1, ?_, ?_, ?_, ?_⟩
  · have := hmono hw0
    rwa [timeU_zero hmu hh] at this
  · intro γ hγ h0
    rw [twoBody_unique hmu hγ (by rw [h0]; exact hh), h0, kepFlow_of_time hmu hh rfl, hw1]
  · intro h2
    obtain ⟨w1, w2⟩ := hw3 h2
    have hu : 0 < 1 - x ^ 2 := by nlinarith
    obtain ⟨b, hb⟩ : ∃ b, b = √(2 * (1 - x ^ 2) / g.s) := ⟨_, rfl⟩
    have hb0 : 0 < b := by rw [hb]; exact sqrt_pos.2 (by positivity)
    have hb2 : b ^ 2 = 2 * (1 - x ^ 2) / g.s := by rw [hb]; exact sq_sqrt (by positivity)
    have hk := sqrt_pos.2 hmu
    rw [← hb] at w1 w2
    have hP : 2 * π * √((1 / b ^ 2) ^ 3 / mu) = 2 * π / (b ^ 3 * √mu) := by
      rw [sqrt_div (by positivity), show (1 / b ^ 2) ^ 3 = (1 / b ^ 3) ^ 2 by field_simp, sqrt_sq (by positivity)]
      field_simp
    have hper : ∀ n : ℕ, timeU ⟨r0, v0⟩ mu (2 * π * n / b) = n * (2 * π / (b ^ 3 * √mu)) := by
      intro n
      have := (timeU_period_int hmu hh hb0 (by rw [ha, hb2]) 0 (n : ℤ)).1
      rw [timeU_zero hmu hh, zero_add, zero_add] at this
      push_cast at this
      rw [this]; ring
    refine ⟨1 / b ^ 2, ?_, by positivity, ?_, ?_⟩
    · obtain ⟨v0', v1', hv', hE0, -⟩ := orbit S hmu x
      obtain ⟨rfl, rfl⟩ : v0 = v0' ∧ v1 = v1' := by rw [hv] at hv'; simpa using hv'
      rw [hE0, hb2]; field_simp
    · rw [hP, ← hper]
      apply hmono
      rw [div_lt_iff₀ hb0]; linarith
    · rw [hP, show ((((k + 1) / 2 : ℕ) : ℝ) + 1) = (((k + 1) / 2 + 1 : ℕ) : ℝ) by push_cast; ring, ← hper]
      apply hmono
      rw [lt_div_iff₀ hb0]
      push_cast at w2 ⊢
      linarith
  · intro hN T hT
    have hne : x ≠ 1 := by
      rintro rfl
      rw [C32_parabola] at hT
      contradiction
    obtain ⟨T', T0, a1, a2, a3, a4⟩ := C32_x2tof S.lam_lt h1 hne (N := (k + 1) / 2) (hN.imp id fun h => by rw [h])
    rw [lancaster_some S.lam_lt h1 hne, Option.some.injEq] at a2
    rw [eL, a1, Option.some.injEq] at hT
    have e : nonDim r0 r1 (timeU ⟨r0, v0⟩ mu w) mu = T0 := by
      rw [← a2, ← hw2, geom_s hg]; unfold nonDim; ring
    rw [e, ← hT]
    refine ⟨by rw [abs_sub_comm]; exact a3, fun h => (a4 h).symm⟩

/-- C33. If the iterations have ended at a root of the time of flight equation, the transfer takes the requested time. -/
theorem C33_arrives {j : Junk} {r0 r1 : V3 ℝ} {tof mu : ℝ} {cw : Bool} {m : ℕ} {L : Lambert}
    (h : make j r0 r1 tof mu cw m = .ok L) (hz : (cross r0 r1).z ≠ 0) {k : ℕ} {x : ℝ} (hx : L.x[k]? = some (some x))
    (h1 : -1 < x) (hN : x < 1 ∨ k = 0) (hd : 0.01 ≤ |x - 1|)
    (hroot : x2tof L.lam x ((k + 1) / 2) = some (nonDim r0 r1 tof mu)) :
    ∃ v0 v1, L.v0[k]? = some (some v0) ∧ L.v1[k]? = some (some v1) ∧
      ∀ γ, TwoBody mu γ → γ 0 = ⟨r0, v0⟩ → γ tof = ⟨r1, v1⟩ := by
  obtain ⟨v0, v1, t, e0, e1, ht, hγ, -, hT⟩ := C33_flies h hz hx h1
  have hmu := (make_inv h).2.1
  obtain ⟨g, f, ct, st, rho, sg, hg, S⟩ := geom_spec cw hz
  have hs : 0 < semiPerimeter r0 r1 := by rw [← geom_s hg]; exact S.s_pos
  have := (hT hN _ hroot).2 hd
  unfold nonDim at this
  have hp : 0 < √(2 * mu / semiPerimeter r0 r1 / semiPerimeter r0 r1 / semiPerimeter r0 r1) := sqrt_pos.2 (by positivity)
  obtain rfl : t = tof := mul_left_cancel₀ hp.ne' this
  exact ⟨v0, v1, e0, e1, hγ⟩

/-- C33. In general the error of the arrival time is that of the time of flight equation. -/
theorem C33_error {j : Junk} {r0 r1 : V3 ℝ} {tof mu : ℝ} {cw : Bool} {m : ℕ} {L : Lambert}
    (h : make j r0 r1 tof mu cw m = .ok L) (hz : (cross r0 r1).z ≠ 0) {k : ℕ} {x : ℝ} (hx : L.x[k]? = some (some x))
    (h1 : -1 < x) (hN : x < 1 ∨ k = 0) {T e : ℝ} (hT : x2tof L.lam x ((k + 1) / 2) = some T)
    (he : |T - nonDim r0 r1 tof mu| ≤ e) :
    ∃ v0 v1 t, L.v0[k]? = some (some v0) ∧ L.v1[k]? = some (some v1) ∧
      (∀ γ, TwoBody mu γ → γ 0 = ⟨r0, v0⟩ → γ t = ⟨r1, v1⟩) ∧
      √(2 * mu / semiPerimeter r0 r1 ^ 3) * |t - tof| ≤ e + 1e-10 := by
  obtain ⟨v0, v1, t, e0, e1, ht, hγ, -, hT'⟩ := C33_flies h hz hx h1
  refine ⟨v0, v1, t, e0, e1, hγ, ?_⟩
  have h3 := (hT' hN T hT).1
  have e2 : ∀ u, nonDim r0 r1 u mu = √(2 * mu / semiPerimeter r0 r1 ^ 3) * u := by
    intro u; unfold nonDim; rw [div_div, div_div]; congr 3; ring
  rw [e2] at h3 he
  have hq := sqrt_nonneg (2 * mu / semiPerimeter r0 r1 ^ 3)
  generalize √(2 * mu / semiPerimeter r0 r1 ^ 3) = q at *
  rw [show q * |t - tof| = |(q * t - T) + (T - q * tof)| by
    rw [show (q * t - T) + (T - q * tof) = q * (t - tof) by ring, abs_mul, abs_of_nonneg hq]]
  exact (abs_add_le _ _).trans (by linarith)

section
variable {l : ℝ} (hl : l ^ 2 < 1)
include hl

theorem T00_eq : T00 l = some (tofX l 0 0) := by
  have ha : |l| < 1 := (sq_lt_one_iff_abs_lt_one l).1 hl
  have hb := abs_lt.1 ha
  unfold T00
  rw [acos?_ok ⟨hb.1.le, hb.2.le⟩, sqrt?_ok (by nlinarith)]
  simp only [Option.bind_eq_bind, Option.bind_some, Option.pure_def, Option.some.injEq]
  unfold tofX tofE angE yOf
  rw [if_pos one_pos]
  simp only [Nat.cast_zero, zero_mul, arccos_zero]
  norm_num
  rw [arccos_eq_pi_div_two_sub_arcsin]
  rw [pow_two]

/-- The step of the iterations away from the parabola. -/
theorem step_eq {x T : ℝ} {N : ℕ} (h1 : -1 < x) (hd : 0.01 ≤ |x - 1|)
    (hden : d1 l x (tofX l x N) * (d1 l x (tofX l x N) * d1 l x (tofX l x N) - (tofX l x N - T) * d2 l x (tofX l x N))
      + d3 l x (tofX l x N) * (tofX l x N - T) * (tofX l x N - T) / 6 ≠ 0) :
    householderStep l T x N = some (x - (tofX l x N - T) * (d1 l x (tofX l x N) * d1 l x (tofX l x N)
      - (tofX l x N - T) * d2 l x (tofX l x N) / 2) /
      (d1 l x (tofX l x N) * (d1 l x (tofX l x N) * d1 l x (tofX l x N) - (tofX l x N - T) * d2 l x (tofX l x N))
      + d3 l x (tofX l x N) * (tofX l x N - T) * (tofX l x N - T) / 6)) := by
  have hx : 1 - x ^ 2 ≠ 0 := fun h => by
    have : (1 - x) * (1 + x) = 0 := by linear_combination h
    rcases mul_eq_zero.1 this with h | h
    · rw [show x - 1 = 0 by linarith] at hd
      norm_num at hd
    · linarith
  unfold householderStep
  rw [x2tof_exact hl hd, if_pos h1]
  simp only [Option.bind_eq_bind, Option.bind_some, dTdx_eq hl hx, div?_ok hden, Option.pure_def]

/-- C33. A root of the time of flight equation is a fixed point of the iterations. -/
theorem C33_fixpoint {x T : ℝ} {N : ℕ} (h1 : -1 < x) (hd : 0.01 ≤ |x - 1|) (hroot : x2tof l x N = some T)
    (hsimple : ∀ D, dTdx l x T = some D → D.1 ≠ 0) : householderStep l T x N = some x := by
  have hx : 1 - x ^ 2 ≠ 0 := fun h => by
    have : (1 - x) * (1 + x) = 0 := by linear_combination h
    rcases mul_eq_zero.1 this with h | h
    · rw [show x - 1 = 0 by linarith] at hd
      norm_num at hd
    · linarith
  rw [x2tof_exact hl hd, if_pos h1, Option.some.injEq] at hroot
  have h2 := hsimple _ (dTdx_eq hl hx T)
  rw [step_eq hl h1 hd]
  · rw [hroot]; simp
  · rw [hroot]
    simp only at h2
    simpa using h2

/-- C33. Near a simple root the iterations converge: for every factor `q` there is a neighbourhood in which each step
reduces the distance to the root by that factor (so that convergence is faster than linear). -/
theorem C33_convergence {r T : ℝ} {N : ℕ} (h1 : -1 < r) (hd : 0.01 < |r - 1|) (hroot : x2tof l r N = some T)
    (hsimple : ∀ D, dTdx l r T = some D → D.1 ≠ 0) {q : ℝ} (hq : 0 < q) :
    ∃ δ > 0, ∀ x, |x - r| < δ → ∃ x', householderStep l T x N = some x' ∧ |x' - r| ≤ q * |x - r| := by
  have hne : r ≠ 1 := by rintro rfl; norm_num at hd
  have hx : 1 - r ^ 2 ≠ 0 := fun h => by
    have : (1 - r) * (1 + r) = 0 := by linear_combination h
    rcases mul_eq_zero.1 this with h | h
    · exact hne (by linarith)
    · linarith
  rw [x2tof_exact hl hd.le, if_pos h1, Option.some.injEq] at hroot
  have hD := hsimple _ (dTdx_eq hl hx T)
  simp only at hD
  rw [← hroot] at hD
  have t1 := hasDerivAt_tofX hl h1 hne N
  have t2 := hasDerivAt_d1 hl hx t1
  have t3 := hasDerivAt_d2 hl hx t1
  have c0 := t1.continuousAt
  have c1 := t2.continuousAt
  have c2 := t3.continuousAt
  have c3 : ContinuousAt (fun x => d3 l x (tofX l x N)) r := by
    unfold d3
    have hy := (hasDerivAt_yOf hl r).continuousAt
    have hy0 := (yOf_pos hl r).ne'
    refine ContinuousAt.div ?_ (by fun_prop) hx
    refine ((continuousAt_id.const_mul 7).mul c2 |>.add (c1.const_mul 8)).sub ?_
    exact ContinuousAt.div (by fun_prop) (hy.pow 5) (pow_ne_zero 5 hy0)
  obtain ⟨D1, hD1⟩ : ∃ f : ℝ → ℝ, f = fun x => d1 l x (tofX l x N) := ⟨_, rfl⟩
  obtain ⟨D2, hD2⟩ : ∃ f : ℝ → ℝ, f = fun x => d2 l x (tofX l x N) := ⟨_, rfl⟩
  obtain ⟨D3, hD3⟩ : ∃ f : ℝ → ℝ, f = fun x => d3 l x (tofX l x N) := ⟨_, rfl⟩
  obtain ⟨F, hF⟩ : ∃ f : ℝ → ℝ, f = fun x => tofX l x N - T := ⟨_, rfl⟩
  have cF : ContinuousAt F r := by rw [hF]; exact c0.sub continuousAt_const
  have dF : HasDerivAt F (D1 r) r := by rw [hF, hD1]; exact t1.sub_const T
  have F0 : F r = 0 := by rw [hF]; simp [hroot]
  rw [← hD1] at c1
  rw [← hD2] at c2
  rw [← hD3] at c3
  have hD' : D1 r ≠ 0 := by rw [hD1]; exact hD
  obtain ⟨den, hden⟩ : ∃ f : ℝ → ℝ, f = fun x => D1 x * (D1 x * D1 x - F x * D2 x) + D3 x * F x * F x / 6 := ⟨_, rfl⟩
  have cden : ContinuousAt den r := by rw [hden]; fun_prop
  have den0 : den r = D1 r ^ 3 := by rw [hden]; simp only [F0]; ring
  have hden0 : den r ≠ 0 := by rw [den0]; exact pow_ne_zero 3 hD'
  obtain ⟨Q, hQ⟩ : ∃ f : ℝ → ℝ, f = fun x => (D1 x * D1 x - F x * D2 x / 2) / den x := ⟨_, rfl⟩
  have cQ : ContinuousAt Q r := by rw [hQ]; exact ContinuousAt.div (by fun_prop) cden hden0
  have Q0 : Q r * D1 r = 1 := by
    rw [hQ]; simp only [F0, den0]; field_simp; ring
  -- the step is `x - F x * Q x`
  have hstep : HasDerivAt (fun x => x - F x * Q x) 0 r := by
    have hp : HasDerivAt (fun x => F x * Q x) 1 r := by
      rw [hasDerivAt_iff_tendsto_slope] at dF ⊢
      have := dF.mul (cQ.tendsto.mono_left (nhdsWithin_le_nhds (s := {r}ᶜ)))
      rw [mul_comm (D1 r), Q0] at this
      refine this.congr fun x => ?_
      simp only [slope, F0, vsub_eq_sub, smul_eq_mul]
      ring
    exact ((hasDerivAt_id r).sub hp).congr_deriv (sub_self 1)
  have hlit := hstep.isLittleO.def hq
  simp only [F0, zero_mul, sub_zero, smul_zero, norm_eq_abs] at hlit
  have e1 : ∀ᶠ x in 𝓝 r, -1 < x := lt_mem_nhds h1
  have e2 : ∀ᶠ x in 𝓝 r, 0.01 < |x - 1| :=
    (continuous_abs.comp (continuous_id.sub continuous_const)).continuousAt.eventually (lt_mem_nhds hd)
  have e3 : ∀ᶠ x in 𝓝 r, den x ≠ 0 := cden.eventually_ne hden0
  have hall := hlit.and (e1.and (e2.and e3))
  rw [Metric.eventually_nhds_iff] at hall
  obtain ⟨δ, hδ, hall⟩ := hall
  refine ⟨δ, hδ, fun x hxr => ?_⟩
  obtain ⟨a1, a2, a3, a4⟩ := hall (by rw [Real.dist_eq]; exact hxr)
  refine ⟨x - F x * Q x, ?_, a1⟩
  rw [step_eq hl a2 a3.le (by rw [hden, hD1, hD2, hD3, hF] at a4; exact a4)]
  rw [hQ, hden, hD1, hD2, hD3, hF]
  simp only [Option.some.injEq]
  ring

end

/-- An example with an exact root: the minimum energy transfer, whose iteration variable is 0. -/
theorem C33_example (j : Junk) : ∃ tof L v0 v1, make j exR0 exR1 tof 1 false 0 = .ok L ∧ L.x[0]? = some (some 0) ∧
    L.v0[0]? = some (some v0) ∧ L.v1[0]? = some (some v1) ∧
    (∀ γ, TwoBody 1 γ → γ 0 = ⟨exR0, v0⟩ → γ tof = ⟨exR1, v1⟩) ∧ x2tof L.lam 0 0 = some (nonDim exR0 exR1 tof 1) := by
  obtain ⟨g, f, ct, st, rho, sg, hg, S⟩ := geom_spec false ex_z
  have hs : 0 < semiPerimeter exR0 exR1 := by rw [← geom_s hg]; exact S.s_pos
  have hp : 0 < √(2 * 1 / semiPerimeter exR0 exR1 / semiPerimeter exR0 exR1 / semiPerimeter exR0 exR1) :=
    sqrt_pos.2 (by positivity)
  have hT0 : 0 < tofX g.lam 0 0 := by
    have := tofE_pos S.lam_lt (x := 0) (by norm_num) (by norm_num) 0
    unfold tofX; rwa [if_pos one_pos]
  have hT1 : tofX g.lam 0 0 ≤ 2 * π := by
    have h := T00_eq S.lam_lt
    have hb := abs_lt.1 ((sq_lt_one_iff_abs_lt_one g.lam).1 S.lam_lt)
    unfold T00 at h
    rw [acos?_ok ⟨hb.1.le, hb.2.le⟩, sqrt?_ok (by nlinarith)] at h
    simp only [Option.bind_eq_bind, Option.bind_some, Option.pure_def, Option.some.injEq] at h
    rw [← h]
    have h1 := arccos_le_pi g.lam
    have h2 : √(1 - g.lam * g.lam) ≤ 1 := by rw [sqrt_le_left (by norm_num)]; nlinarith
    have h3 := sqrt_nonneg (1 - g.lam * g.lam)
    have := pi_gt_three
    nlinarith
  obtain ⟨tof, htof⟩ : ∃ t, nonDim exR0 exR1 t 1 = tofX g.lam 0 0 := ⟨tofX g.lam 0 0 / _, by
    unfold nonDim; exact mul_div_cancel₀ _ hp.ne'⟩
  have htof0 : 0 < tof := by
    rw [← htof] at hT0
    unfold nonDim at hT0
    exact (pos_iff_pos_of_mul_pos hT0).1 hp
  obtain ⟨L, hL⟩ := C30_accepts j false 0 htof0 one_pos ex_z (by rw [htof]; have := pi_pos; linarith)
  obtain ⟨-, -, g', hg', -, hN, hLe⟩ := make_inv hL
  obtain rfl : g = g' := by rw [hg] at hg'; exact Res.ok.inj hg'
  have hx0 : householderStep g.lam (tofX g.lam 0 0) 0 0 = some 0 := by
    refine C33_fixpoint S.lam_lt (by norm_num) (by norm_num) ?_ ?_
    · rw [x2tof_exact S.lam_lt (by norm_num), if_pos (by norm_num)]
    · intro D hD
      rw [dTdx_eq S.lam_lt (by norm_num), Option.some.injEq] at hD
      rw [← hD]
      have := d1_tofE_neg S.lam_lt (x := 0) (by norm_num) (by norm_num)
      unfold tofX; rw [if_pos one_pos]
      exact this.ne
  have hx : L.x[0]? = some (some 0) := by
    rw [hLe]
    simp only [htof, solutions, List.map_cons, List.getElem?_cons_zero, Option.some.injEq]
    unfold householderN guess0
    rw [T00_eq S.lam_lt]
    simp only [Option.bind_eq_bind, Option.bind_some, le_refl, if_true, sub_self, neg_zero, zero_add]
    rw [div?_ok (by norm_num), zero_div]
    simp only
    unfold householder
    rw [hx0]
    simp only [sub_self, abs_zero]
    rw [if_neg (by norm_num)]
  have hroot : x2tof L.lam 0 0 = some (nonDim exR0 exR1 tof 1) := by
    rw [show L.lam = g.lam by rw [hLe], htof, x2tof_exact S.lam_lt (by norm_num), if_pos (by norm_num)]
  obtain ⟨v0, v1, e0, e1, hγ⟩ := C33_arrives hL ex_z hx (by norm_num) (.inr rfl) (by norm_num) hroot
  exact ⟨tof, L, v0, v1, hL, hx, e0, e1, hγ, hroot⟩

end Lambert
end Kep3
