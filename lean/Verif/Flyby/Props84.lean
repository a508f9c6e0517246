import Verif.Flyby.Double
import Mathlib.Analysis.SpecialFunctions.Trigonometric.Bounds

/-!
# Accuracy of the fly-by functions in double precision
-/

namespace Kep3
open Real V3 Fl

/-! ## The impulse as a function of the missing turn -/

/-- The difference of two velocities of sizes `a`, `b` at an angle `t`. -/
noncomputable def gap (a b t : ℝ) : ℝ := √(b ^ 2 + a ^ 2 - 2 * (b * a) * cos t)

theorem gap_zero (a b : ℝ) : gap a b 0 = |b - a| := by
  unfold gap; rw [cos_zero, show b ^ 2 + a ^ 2 - 2 * (b * a) * 1 = (b - a) ^ 2 by ring, sqrt_sq_eq_abs]

theorem hyp_lip (c y z : ℝ) : |√(c ^ 2 + y ^ 2) - √(c ^ 2 + z ^ 2)| ≤ |y - z| := by
  have hP := sq_sqrt (by positivity : 0 ≤ c ^ 2 + y ^ 2)
  have hQ := sq_sqrt (by positivity : 0 ≤ c ^ 2 + z ^ 2)
  have p1 : |y| ≤ √(c ^ 2 + y ^ 2) := by rw [← sqrt_sq_eq_abs]; exact sqrt_le_sqrt (by nlinarith)
  have q1 : |z| ≤ √(c ^ 2 + z ^ 2) := by rw [← sqrt_sq_eq_abs]; exact sqrt_le_sqrt (by nlinarith)
  have p0 := sqrt_nonneg (c ^ 2 + y ^ 2)
  have q0 := sqrt_nonneg (c ^ 2 + z ^ 2)
  generalize √(c ^ 2 + y ^ 2) = P at *
  generalize √(c ^ 2 + z ^ 2) = Q at *
  rcases (add_nonneg p0 q0).eq_or_lt with h | h
  · have hp : P = 0 := by linarith
    have hq : Q = 0 := by linarith
    rw [hp, hq]; simp
  · have e : |P - Q| * (P + Q) = |y - z| * |y + z| := by
      rw [← abs_of_pos h, ← abs_mul, ← abs_mul]; congr 1; nlinarith
    have : |y + z| ≤ P + Q := (abs_add_le y z).trans (by linarith)
    have : |P - Q| * (P + Q) ≤ |y - z| * (P + Q) := by rw [e]; exact mul_le_mul_of_nonneg_left this (abs_nonneg _)
    exact le_of_mul_le_mul_right this h

theorem gap_lip {a b : ℝ} (ha : 0 ≤ a) (hb : 0 ≤ b) (t s : ℝ) : |gap a b t - gap a b s| ≤ (a + b) / 2 * |t - s| := by
  have e : ∀ t, gap a b t = √((b - a) ^ 2 + (2 * √(a * b) * sin (t / 2)) ^ 2) := by
    intro t
    unfold gap
    congr 1
    have hc : cos t = 1 - 2 * sin (t / 2) ^ 2 := by
      have := cos_two_mul (t / 2)
      rw [show 2 * (t / 2) = t by ring] at this
      have := sin_sq_add_cos_sq (t / 2)
      linarith
    have := sq_sqrt (mul_nonneg ha hb)
    rw [hc, mul_pow, mul_pow, this]; ring
  rw [e, e]
  refine (hyp_lip _ _ _).trans ?_
  have hs := sqrt_nonneg (a * b)
  have h1 : 2 * √(a * b) ≤ a + b := by
    have h := Real.sqrt_le_sqrt (show a * b ≤ ((a + b) / 2) ^ 2 by nlinarith [sq_nonneg (a - b)])
    rw [Real.sqrt_sq (by linarith)] at h
    linarith
  have h2 := abs_sin_sub_sin_le (t / 2) (s / 2)
  rw [show t / 2 - s / 2 = (t - s) / 2 by ring, abs_div, abs_of_pos (by norm_num : (0 : ℝ) < 2)] at h2
  rw [← mul_sub, abs_mul, abs_of_nonneg (by positivity : 0 ≤ 2 * √(a * b))]
  calc 2 * √(a * b) * |sin (t / 2) - sin (s / 2)| ≤ (a + b) * (|t - s| / 2) :=
        mul_le_mul h1 h2 (abs_nonneg _) (by linarith)
    _ = _ := by ring

/-- The exact impulse. -/
theorem fbDv_gap {vin vout : V3 ℝ} {mu safe : ℝ} (hmu : 0 < mu) (hs : 0 < safe) (hi : vin ≠ 0) (ho : vout ≠ 0) :
    fbDv vin vout mu safe = gap (norm vin) (norm vout) (max 0 (angleV vin vout - turnAngle safe (dot vin vin) mu)) := by
  rw [fbDv_run hmu hs hi ho]
  split_ifs with h
  · rw [max_eq_right (by linarith)]; rfl
  · rw [max_eq_left (by linarith), gap_zero]

section Bounds
variable {A : Arith} (hA : A.Double)
include hA

/-- The computed excess of the turn, or a NaN next to the ends of the domain of `std::acos`. -/
theorem ineq_err {vin vout : V3 ℝ} {mu safe : ℝ} (hmu : 0 < mu) (hs : 0 < safe) (hi : vin ≠ 0) (ho : vout ≠ 0) :
    (∃ d, fbIneqA A vin vout mu safe = some d ∧ |d - (angleV vin vout - turnAngle safe (dot vin vin) mu)| ≤ 2.1 / 10 ^ 7) ∨
    (fbIneqA A vin vout mu safe = none ∧ ∃ q, fbCosA A vin vout = some q ∧
      (1 < q ∧ angleV vin vout ≤ 8.2 / 10 ^ 8 ∨ q < -1 ∧ π - 8.2 / 10 ^ 8 ≤ angleV vin vout)) := by
  obtain ⟨q, hq, hqe⟩ := fbCos_err hA hi ho
  obtain ⟨t, ht0, hte, hrun⟩ := turn_err hA (vout := vout) hmu hs hi
  have hN : 0 < norm vin * norm vout := mul_pos (norm_pos hi) (norm_pos ho)
  have hV : 0 < V3.dot vin vin := by rw [← norm_sq]; have := norm_pos hi; positivity
  have hc : -1 ≤ dot vin vout / (norm vin * norm vout) ∧ dot vin vout / (norm vin * norm vout) ≤ 1 := by
    have := abs_le.1 (abs_dot_le vin vout)
    constructor
    · rw [le_div_iff₀ hN]; linarith
    · rw [div_le_iff₀ hN]; linarith
  rw [hq, Option.bind_some] at hrun
  by_cases hd : -1 ≤ q ∧ q ≤ 1
  · left
    rw [hrun]
    refine ⟨rn (A.acos q - t), by rw [Arith.acos?, if_pos hd]; rfl, ?_⟩
    have h1 := holder1 hd hc hqe
    have h2 := hA.acos q hd.1 hd.2
    obtain ⟨a0, a1⟩ := angleV_mem vin vout
    obtain ⟨t0, t1⟩ := turnAngle_mem hmu hV hs
    have hpi := pi_lt_d4
    change |arccos q - angleV vin vout| ≤ _ at h1
    generalize angleV vin vout = al at *
    generalize turnAngle safe (dot vin vin) mu = tn at *
    generalize A.acos q = al' at *
    generalize arccos q = aq at *
    rw [abs_le] at h1 h2 hte
    have h4 := rn_err' (al' - t)
    have h5 : |al' - t| ≤ 7 := by rw [abs_le]; norm_num at *; constructor <;> linarith
    have h6 : u * |al' - t| ≤ 7 / 10 ^ 15 := by nlinarith [abs_nonneg (al' - t), u_small, u_pos]
    have h7 := abs_le.1 (h4.trans h6)
    rw [abs_le]
    norm_num at *
    constructor <;> linarith
  · right
    refine ⟨by rw [hrun, Arith.acos?, if_neg hd]; rfl, q, hq, ?_⟩
    have hu := u_pos
    rcases le_or_gt q 1 with h1 | h1
    · right
      have h2 : q < -1 := by by_contra h; exact hd ⟨le_of_not_gt h, h1⟩
      refine ⟨h2, ?_⟩
      have := holder1 (x := -1) ⟨le_rfl, by norm_num⟩ hc (by
        rw [abs_le] at hqe ⊢; constructor <;> [linarith; linarith [hc.1]])
      rw [arccos_neg_one] at this
      have := (abs_le.1 this).2
      change π - angleV vin vout ≤ _ at this
      linarith
    · left
      refine ⟨h1, ?_⟩
      have := holder1 (x := 1) ⟨by norm_num, le_rfl⟩ hc (by
        rw [abs_le] at hqe ⊢; constructor <;> [linarith [hc.2]; linarith])
      rw [arccos_one] at this
      have := (abs_le.1 this).1
      change _ ≤ 0 - angleV vin vout at this
      linarith

/-- **C84.** `fb_con` in double precision. The equality constraint is accurate relative to the squared speeds. The inequality constraint
is a number within 3e-7 rad of the exact excess of the turn, unless the velocities are within 1e-7 rad of parallel or antiparallel: there it
may also be a NaN. -/
theorem C84_con_partial {vin vout : V3 ℝ} {mu safe : ℝ} (hmu : 0 < mu) (hs : 0 < safe) (hi : vin ≠ 0) (ho : vout ≠ 0) :
    |(fbConA A vin vout mu safe).1 - (norm vin ^ 2 - norm vout ^ 2)| ≤ (norm vin ^ 2 + norm vout ^ 2) / 2 ^ 50 ∧
    ((∃ d ineq, (fbConA A vin vout mu safe).2 = some d ∧ (fbCon vin vout mu safe).2 = some ineq ∧ |d - ineq| ≤ 3 / 10 ^ 7) ∨
     ((fbConA A vin vout mu safe).2 = none ∧ (angleV vin vout ≤ 1 / 10 ^ 7 ∨ π - 1 / 10 ^ 7 ≤ angleV vin vout))) := by
  refine ⟨?_, ?_⟩
  · unfold fbConA
    have h1 := (near_dot hA vin).abs_le
    have h2 := (near_dot hA vout).abs_le
    rw [← norm_sq] at h1 h2
    simp only [hA.rd]
    have p1 : 0 ≤ norm vin ^ 2 := by positivity
    have p2 : 0 ≤ norm vout ^ 2 := by positivity
    generalize A.dot vin vin = a' at *
    generalize A.dot vout vout = b' at *
    generalize norm vin ^ 2 = a at *
    generalize norm vout ^ 2 = b at *
    have hu := u_pos
    have hus := u_small
    have h3 := rn_err' (a' - b')
    rw [abs_le] at h1 h2
    have ka : u * a ≤ 0.001 * a := mul_le_mul_of_nonneg_right (by linarith) p1
    have kb : u * b ≤ 0.001 * b := mul_le_mul_of_nonneg_right (by linarith) p2
    have h4 : |a' - b'| ≤ 1.01 * (a + b) := by rw [abs_le]; constructor <;> linarith
    have h5 := abs_le.1 (h3.trans (mul_le_mul_of_nonneg_left h4 hu.le))
    have h6 : (a + b) / 2 ^ 50 = 8 * u * (a + b) := by unfold u; ring
    have qa : 0 ≤ u * a := by positivity
    have qb : 0 ≤ u * b := by positivity
    rw [h6, abs_le]
    constructor <;> linarith
  · rcases ineq_err hA hmu hs hi ho with ⟨d, hd, he⟩ | ⟨hn, q, _, h⟩
    · left
      refine ⟨d, _, hd, fbIneq_run hmu hs hi ho, he.trans (by norm_num)⟩
    · right
      refine ⟨hn, ?_⟩
      rcases h with ⟨_, h⟩ | ⟨_, h⟩
      · left; norm_num at *; linarith
      · right; norm_num at *; linarith

theorem feas_run (vin vout : V3 ℝ) : ∃ d, fbDvFeasA A vin vout = some d ∧ 0 ≤ d ∧
    |d - (|norm vout - norm vin|)| ≤ 6 * u * (norm vin + norm vout) := by
  have hi := near_dot hA vin
  have ho := near_dot hA vout
  refine ⟨|rn (rn √(A.dot vout vout) - rn √(A.dot vin vin))|, ?_, abs_nonneg _, ?_⟩
  · unfold fbDvFeasA Arith.sqrt?
    rw [sqrt?_ok hi.nonneg, sqrt?_ok ho.nonneg, hA.rd]
    rfl
  · have h1 := (hi.sqrt.rn (by norm_num)).abs_le
    have h2 := (ho.sqrt.rn (by norm_num)).abs_le
    change |_ - norm vin| ≤ _ * norm vin at h1
    change |_ - norm vout| ≤ _ * norm vout at h2
    have p1 := norm_nonneg vin
    have p2 := norm_nonneg vout
    refine (abs_abs_sub_abs_le _ _).trans ?_
    generalize rn √(A.dot vin vin) = a' at *
    generalize rn √(A.dot vout vout) = b' at *
    generalize norm vin = a at *
    generalize norm vout = b at *
    have hu := u_pos
    have hus := u_small
    have h3 := rn_err' (b' - a')
    rw [abs_le] at h1 h2
    have ka : u * a ≤ 0.001 * a := mul_le_mul_of_nonneg_right (by linarith) p1
    have kb : u * b ≤ 0.001 * b := mul_le_mul_of_nonneg_right (by linarith) p2
    have h4 : |b' - a'| ≤ 1.01 * (a + b) := by rw [abs_le]; constructor <;> linarith
    have h5 := abs_le.1 (h3.trans (mul_le_mul_of_nonneg_left h4 hu.le))
    have qa : 0 ≤ u * a := by positivity
    have qb : 0 ≤ u * b := by positivity
    rw [abs_le]
    constructor <;> linarith

/-- The radicand of the branch for turns out of reach. -/
theorem radicand_err {vin vout : V3 ℝ} (d : ℝ) :
    |rn (rn (A.dot vout vout + A.dot vin vin) - rn (rn (2 * rn √(rn (A.dot vout vout * A.dot vin vin))) * A.cos d))
      - (norm vout ^ 2 + norm vin ^ 2 - 2 * (norm vout * norm vin) * cos d)| ≤ 14 * u * (norm vin + norm vout) ^ 2 := by
  have hu := u_pos
  have hus := u_small
  have hsum := ((near_dot hA vout).add (near_dot hA vin)).rn (by norm_num)
  have hroot := (((Near.exact (by norm_num : (0 : ℝ) ≤ 2)).mul (near_root hA vout vin) (by norm_num)).rn (by norm_num)).abs_le
  have hcos := hA.cos d
  have hc1 := abs_cos_le_one d
  have h1 := hsum.abs_le
  rw [← norm_sq, ← norm_sq] at h1
  have p1 := norm_nonneg vin
  have p2 := norm_nonneg vout
  generalize rn (A.dot vout vout + A.dot vin vin) = s' at *
  generalize rn (2 * rn √(rn (A.dot vout vout * A.dot vin vin))) = r' at *
  generalize A.cos d = c' at *
  generalize cos d = c at *
  generalize norm vin = a at *
  generalize norm vout = b at *
  have hc : |c' - c| ≤ 2 * u := by unfold u; linarith
  set N := 2 * (b * a) with hN
  have N0 : 0 ≤ N := by positivity
  set Q := (a + b) ^ 2 with hQ
  have hQe : Q = b ^ 2 + a ^ 2 + N := by rw [hQ, hN]; ring
  have k : ∀ t : ℝ, 0 ≤ t → u * t ≤ 0.0001 * t := fun t ht => mul_le_mul_of_nonneg_right (by linarith) ht
  -- the product with the cosine
  have hr1 : |r' - N| ≤ 9.12 * u * N := hroot.trans (by
    apply mul_le_mul_of_nonneg_right _ N0; apply mul_le_mul_of_nonneg_right _ hu.le; norm_num)
  have hr2 : |r'| ≤ 1.001 * N := by
    have := abs_add_le (r' - N) N
    rw [sub_add_cancel, abs_of_nonneg N0] at this
    have := k N N0
    linarith
  have hp : |r' * c' - N * c| ≤ 11.2 * u * N := by
    have e : r' * c' - N * c = r' * (c' - c) + (r' - N) * c := by ring
    have a1 : |r' * (c' - c)| ≤ (1.001 * N) * (2 * u) := by
      rw [abs_mul]; exact mul_le_mul hr2 hc (abs_nonneg _) (by positivity)
    have a2 : |(r' - N) * c| ≤ 9.12 * u * N * 1 := by
      rw [abs_mul]; exact mul_le_mul hr1 hc1 (abs_nonneg _) (by positivity)
    have := abs_add_le (r' * (c' - c)) ((r' - N) * c)
    have := mul_nonneg hu.le N0
    rw [e]; linarith
  have hNc : |N * c| ≤ N := by rw [abs_mul, abs_of_nonneg N0]; nlinarith
  have hpr : |rn (r' * c') - N * c| ≤ 12.3 * u * N := by
    have e1 := rn_err' (r' * c')
    have e2 : |r' * c'| ≤ 1.01 * N := by
      have := abs_add_le (r' * c' - N * c) (N * c)
      rw [sub_add_cancel] at this
      have := k N N0
      linarith
    have e3 := e1.trans (mul_le_mul_of_nonneg_left e2 hu.le)
    have := abs_add_le (rn (r' * c') - r' * c') (r' * c' - N * c)
    rw [sub_add_sub_cancel] at this
    have := mul_nonneg hu.le N0
    linarith
  generalize rn (r' * c') = p' at *
  have hs1 : |s' - (b ^ 2 + a ^ 2)| ≤ 4.04 * u * (b ^ 2 + a ^ 2) := h1.trans (le_of_eq (by norm_num))
  have q0 : 0 ≤ b ^ 2 + a ^ 2 := by positivity
  have hd1 : |s' - p' - (b ^ 2 + a ^ 2 - N * c)| ≤ 12.3 * u * Q := by
    have e : s' - p' - (b ^ 2 + a ^ 2 - N * c) = (s' - (b ^ 2 + a ^ 2)) - (p' - N * c) := by ring
    have := abs_sub (s' - (b ^ 2 + a ^ 2)) (p' - N * c)
    have := mul_nonneg hu.le q0
    rw [e, hQe]; linarith
  have Q0 : 0 ≤ Q := by positivity
  have hd2 : |s' - p'| ≤ 1.01 * Q := by
    have := abs_add_le (s' - p' - (b ^ 2 + a ^ 2 - N * c)) (b ^ 2 + a ^ 2 - N * c)
    rw [sub_add_cancel] at this
    have h : |b ^ 2 + a ^ 2 - N * c| ≤ Q := by
      have := abs_sub (b ^ 2 + a ^ 2) (N * c)
      rw [abs_of_nonneg q0] at this
      linarith
    have := k Q Q0
    linarith
  have e1 := (rn_err' (s' - p')).trans (mul_le_mul_of_nonneg_left hd2 hu.le)
  have := abs_add_le (rn (s' - p') - (s' - p')) (s' - p' - (b ^ 2 + a ^ 2 - N * c))
  rw [sub_add_sub_cancel] at this
  have := mul_nonneg hu.le Q0
  linarith

end Bounds

theorem sqrt_diff_le {x y : ℝ} (hx : 0 ≤ x) (hy : 0 ≤ y) : |√x - √y| ≤ √|x - y| := by
  wlog h : y ≤ x generalizing x y
  · rw [abs_sub_comm, abs_sub_comm x]; exact this hy hx (le_of_not_ge h)
  rw [abs_of_nonneg (sub_nonneg.2 (sqrt_le_sqrt h)), abs_of_nonneg (by linarith)]
  have := sqrt_nonneg y
  have h1 := sqrt_nonneg (x - y)
  rw [sub_le_iff_le_add, Real.sqrt_le_left (by linarith)]
  nlinarith [sq_sqrt (by linarith : 0 ≤ x - y), sq_sqrt hy]

theorem sqrt_err {z q : ℝ} (hq : 0 ≤ q) (h : z ≤ 14 * u * q ^ 2) : √z ≤ 4 / 10 ^ 8 * q := by
  rw [Real.sqrt_le_left (by positivity)]
  refine h.trans ?_
  rw [mul_pow]
  apply mul_le_mul_of_nonneg_right _ (by positivity)
  unfold u; norm_num

section Same
variable {A : Arith} (hA : A.Double)
include hA

theorem dotA_pos {v : V3 ℝ} (hv : v ≠ 0) : 0 < A.dot v v := by
  have h : 0 < V3.dot v v := by rw [← norm_sq]; have := norm_pos hv; positivity
  exact (near_dot hA v).pos h

theorem dotA_rep (v w : V3 ℝ) : Rep (A.dot v w) := by unfold Arith.dot; rw [hA.rd]; exact rep_rn _

theorem dotA_neg (v w : V3 ℝ) : A.dot v (-w) = -A.dot v w := by
  unfold Arith.dot
  rw [hA.rd]
  simp only [V3.neg_x, V3.neg_y, V3.neg_z, mul_neg, rn_neg, ← neg_add]

theorem dotA_neg_neg (v : V3 ℝ) : A.dot (-v) (-v) = A.dot v v := by
  unfold Arith.dot
  rw [hA.rd]
  simp only [V3.neg_x, V3.neg_y, V3.neg_z, neg_mul_neg]

theorem fbCosA_same {v : V3 ℝ} (hv : v ≠ 0) : fbCosA A v v = some 1 ∧ fbCosA A v (-v) = some (-1) := by
  have hp := dotA_pos hA hv
  have hr := rn_sqrt_sq hp (dotA_rep hA v v)
  have h1 : rn (1 : ℝ) = 1 := by exact_mod_cast rn_int (K := ℝ) (n := 1) (by norm_num)
  constructor
  · unfold fbCosA
    rw [root_run hA, hr]
    simp only [Option.bind_eq_bind, Option.bind_some, Arith.div?, div?_ok hp.ne', hA.rd, Option.map_some, div_self hp.ne', h1]
  · unfold fbCosA
    rw [root_run hA, dotA_neg_neg hA, dotA_neg hA, hr]
    simp only [Option.bind_eq_bind, Option.bind_some, Arith.div?, div?_ok hp.ne', hA.rd, Option.map_some, neg_div, div_self hp.ne', rn_neg, h1]

end Same

/-- **C84.** A fly-by that does nothing costs exactly nothing, and both constraints are exact or feasible numbers. -/
theorem C84_same {A : Arith} (hA : A.Double) {v : V3 ℝ} {mu safe : ℝ} (hmu : 0 < mu) (hs : 0 < safe) (hv : v ≠ 0) :
    fbDvA A v v mu safe = some 0 ∧ ∃ d, fbConA A v v mu safe = (0, some d) ∧ d ≤ 0 := by
  obtain ⟨t, ht0, -, hrun⟩ := turn_err hA (vout := v) hmu hs hv
  rw [(fbCosA_same hA hv).1, Option.bind_some, Arith.acos?, if_pos (by norm_num), Option.map_some, hA.acos_one, zero_sub, rn_neg] at hrun
  have h0 : -rn t ≤ 0 := by have := rn_nonneg ht0; linarith
  constructor
  · unfold fbDvA
    rw [hrun]
    dsimp only
    rw [if_neg (by linarith)]
    unfold fbDvFeasA Arith.sqrt?
    rw [sqrt?_ok (dotA_pos hA hv).le, hA.rd]
    simp [rn_zero]
  · refine ⟨-rn t, ?_, h0⟩
    unfold fbConA
    rw [hrun, hA.rd, sub_self, rn_zero]

/-- **C84.** `fb_dv` in double precision, for velocities not within 1e-7 rad of antiparallel (or exactly antiparallel, same speed): within 3e-7 of the
sum of the speeds of the exact impulse; a NaN only when the exact impulse is itself that small. -/
theorem C84_dv_partial {A : Arith} (hA : A.Double) {vin vout : V3 ℝ} {mu safe : ℝ} (hmu : 0 < mu) (hs : 0 < safe) (hi : vin ≠ 0) (ho : vout ≠ 0)
    (hang : angleV vin vout < π - 1 / 10 ^ 7 ∨ vout = -vin) :
    (∃ d, fbDvA A vin vout mu safe = some d ∧ 0 ≤ d ∧ |d - fbDv vin vout mu safe| ≤ 3 / 10 ^ 7 * (norm vin + norm vout)) ∨
    (fbDvA A vin vout mu safe = none ∧ fbDv vin vout mu safe ≤ 3 / 10 ^ 7 * (norm vin + norm vout)) := by
  have hu := u_pos
  have hus := u_small
  have p1 := norm_nonneg vin
  have p2 := norm_nonneg vout
  have hV : 0 < V3.dot vin vin := by rw [← norm_sq]; have := norm_pos hi; positivity
  obtain ⟨t0, -⟩ := turnAngle_mem hmu hV hs
  rw [fbDv_gap hmu hs hi ho]
  set Q := norm vin + norm vout with hQ
  have Q0 : 0 ≤ Q := by positivity
  have kQ : u * Q ≤ 1 / 10 ^ 15 * Q := mul_le_mul_of_nonneg_right hus Q0
  -- turns taken to be within reach
  have feas : ∀ e : ℝ, max 0 (angleV vin vout - turnAngle safe (V3.dot vin vin) mu) ≤ e → e ≤ 2.1 / 10 ^ 7 →
      ∃ d, fbDvFeasA A vin vout = some d ∧ 0 ≤ d ∧
        |d - gap (norm vin) (norm vout) (max 0 (angleV vin vout - turnAngle safe (V3.dot vin vin) mu))| ≤ 3 / 10 ^ 7 * Q := by
    intro e h1 h2
    obtain ⟨d, hd, hd0, hde⟩ := feas_run hA vin vout
    refine ⟨d, hd, hd0, ?_⟩
    rw [← gap_zero (norm vin) (norm vout)] at hde
    have hl := gap_lip p1 p2 0 (max 0 (angleV vin vout - turnAngle safe (V3.dot vin vin) mu))
    have m0 : 0 ≤ max 0 (angleV vin vout - turnAngle safe (V3.dot vin vin) mu) := le_max_left _ _
    rw [zero_sub, abs_neg, abs_of_nonneg m0, ← hQ] at hl
    rw [← hQ] at hde
    have hm : Q / 2 * max 0 (angleV vin vout - turnAngle safe (V3.dot vin vin) mu) ≤ Q / 2 * (2.1 / 10 ^ 7) :=
      mul_le_mul_of_nonneg_left (h1.trans h2) (by positivity)
    have := abs_sub_le d (gap (norm vin) (norm vout) 0) (gap (norm vin) (norm vout) (max 0 (angleV vin vout - turnAngle safe (V3.dot vin vin) mu)))
    linarith
  rcases ineq_err hA hmu hs hi ho with ⟨d, hd, he⟩ | ⟨hn, q, hq, h⟩
  · by_cases hpos : 0 < d
    · -- out of reach
      have hR := radicand_err hA (vin := vin) (vout := vout) d
      have hlip := gap_lip p1 p2 d (max 0 (angleV vin vout - turnAngle safe (V3.dot vin vin) mu))
      have hdm : |d - max 0 (angleV vin vout - turnAngle safe (V3.dot vin vin) mu)| ≤ 2.1 / 10 ^ 7 := by
        rw [abs_le] at he ⊢
        rcases max_cases 0 (angleV vin vout - turnAngle safe (V3.dot vin vin) mu) with ⟨h1, h2⟩ | ⟨h1, h2⟩ <;> rw [h1] <;>
          constructor <;> linarith
      rw [← hQ] at hlip hR
      have hl2 : |gap (norm vin) (norm vout) d - gap (norm vin) (norm vout) (max 0 (angleV vin vout - turnAngle safe (V3.dot vin vin) mu))|
          ≤ Q / 2 * (2.1 / 10 ^ 7) := hlip.trans (mul_le_mul_of_nonneg_left hdm (by positivity))
      have hrun : fbDvA A vin vout mu safe = (Kep3.sqrt? (rn (rn (A.dot vout vout + A.dot vin vin)
          - rn (rn (2 * rn √(rn (A.dot vout vout * A.dot vin vin))) * A.cos d)))).map rn := by
        unfold fbDvA
        rw [hd]
        dsimp only
        rw [if_pos hpos, root_run hA, hA.rd]
        simp only [Option.bind_eq_bind, Option.bind_some, Arith.sqrt?, hA.rd]
      rw [hrun]
      generalize rn (rn (A.dot vout vout + A.dot vin vin)
          - rn (rn (2 * rn √(rn (A.dot vout vout * A.dot vin vin))) * A.cos d)) = R at *
      have hG0 : 0 ≤ norm vout ^ 2 + norm vin ^ 2 - 2 * (norm vout * norm vin) * cos d := by
        have := cos_le_one d
        nlinarith [sq_nonneg (norm vout - norm vin), mul_nonneg p2 p1]
      have hG1 : gap (norm vin) (norm vout) d ≤ Q := by
        unfold gap
        rw [Real.sqrt_le_left Q0, hQ]
        have := neg_one_le_cos d
        nlinarith [mul_nonneg p2 p1]
      generalize gap (norm vin) (norm vout) (max 0 (angleV vin vout - turnAngle safe (V3.dot vin vin) mu)) = G at *
      rcases le_or_gt 0 R with h0 | h0
      · left
        refine ⟨rn √R, by rw [sqrt?_ok h0]; rfl, rn_nonneg (sqrt_nonneg _), ?_⟩
        have h1 : |√R - gap (norm vin) (norm vout) d| ≤ 4 / 10 ^ 8 * Q := (sqrt_diff_le h0 hG0).trans (sqrt_err Q0 hR)
        generalize gap (norm vin) (norm vout) d = g at *
        have h2 := rn_err' √R
        have h3 : |√R| ≤ 2 * Q := by
          rw [abs_of_nonneg (sqrt_nonneg _)]
          have := (abs_le.1 h1).2
          linarith
        have h4 := h2.trans (mul_le_mul_of_nonneg_left h3 hu.le)
        have := abs_sub_le (rn √R) √R G
        have := abs_sub_le √R g G
        linarith
      · right
        refine ⟨by rw [Kep3.sqrt?, if_pos h0]; rfl, ?_⟩
        have h1 : gap (norm vin) (norm vout) d ≤ 4 / 10 ^ 8 * Q := by
          unfold gap
          apply sqrt_err Q0
          have := (abs_le.1 hR).1
          linarith
        have := (abs_le.1 hl2).1
        linarith
    · left
      obtain ⟨x, hx, hx2⟩ := feas (2.1 / 10 ^ 7) (by
        apply max_le (by norm_num)
        have := (abs_le.1 he).1
        linarith) le_rfl
      refine ⟨x, ?_, hx2⟩
      unfold fbDvA
      rw [hd]
      dsimp only
      rw [if_neg hpos, hx]
  · rcases h with ⟨_, h⟩ | ⟨hlt, h⟩
    · left
      obtain ⟨x, hx, hx2⟩ := feas (8.2 / 10 ^ 8) (max_le (by norm_num) (by linarith)) (by norm_num)
      refine ⟨x, ?_, hx2⟩
      unfold fbDvA
      rw [hn]
      exact hx
    · exfalso
      rcases hang with hang | hang
      · norm_num at *; linarith
      · rw [hang, (fbCosA_same hA hi).2] at hq
        cases hq
        exact lt_irrefl _ hlt

/-! ## Nearly antiparallel velocities -/

/-- 129085513 / 2^14 m/s, about 7879 m/s. -/
noncomputable def wa : ℝ := 129085513 / 2 ^ 14
/-- 129085515 / 2^14 m/s. -/
noncomputable def wb : ℝ := 129085515 / 2 ^ 14

theorem wa_sq : rn (wa * wa) = 8331534833236584 / 2 ^ 27 := by
  have := rn_eval' (x := wa * wa) 8331534833236584 (-27) (by unfold wa; norm_num) (by unfold wa; norm_num) (by
    unfold rhe wa
    rw [show ⌊(129085513 / 2 ^ 14 * (129085513 / 2 ^ 14) / 2 ^ (-27 : ℤ) : ℝ)⌋ = 8331534833236584 by
      rw [Int.floor_eq_iff]; norm_num]
    norm_num)
  rw [this]; norm_num

theorem wb_sq : rn (wb * wb) = 8331535091407612 / 2 ^ 27 := by
  have := rn_eval' (x := wb * wb) 8331535091407612 (-27) (by unfold wb; norm_num) (by unfold wb; norm_num) (by
    unfold rhe wb
    rw [show ⌊(129085515 / 2 ^ 14 * (129085515 / 2 ^ 14) / 2 ^ (-27 : ℤ) : ℝ)⌋ = 8331535091407612 by
      rw [Int.floor_eq_iff]; norm_num]
    norm_num)
  rw [this]; norm_num

theorem wab : rn (wa * wb) = 8331534962322098 / 2 ^ 27 := by
  have := rn_eval' (x := wa * wb) 8331534962322098 (-27) (by unfold wa wb; norm_num) (by unfold wa wb; norm_num) (by
    unfold rhe wa wb
    rw [show ⌊(129085513 / 2 ^ 14 * (129085515 / 2 ^ 14) / 2 ^ (-27 : ℤ) : ℝ)⌋ = 8331534962322097 by
      rw [Int.floor_eq_iff]; norm_num]
    norm_num)
  rw [this]; norm_num

theorem wprod : rn ((8331534833236584 / 2 ^ 27) * (8331535091407612 / 2 ^ 27) : ℝ) = 7706554819674801 / 2 := by
  have := rn_eval (x := ((8331534833236584 / 2 ^ 27) * (8331535091407612 / 2 ^ 27) : ℝ)) 7706554819674801 (-1)
    (by norm_num) (by norm_num) (by norm_num [abs_lt])
  rw [this]; norm_num

theorem wroot : rn √(7706554819674801 / 2) = 8331534962322097 / 2 ^ 27 := by
  have l : (8331534962322097 - 1 / 4) / 2 ^ 27 < √(7706554819674801 / 2) := by
    apply Real.lt_sqrt_of_sq_lt; norm_num
  have h : √(7706554819674801 / 2) < (8331534962322097 + 1 / 4) / 2 ^ 27 := by
    rw [Real.sqrt_lt' (by norm_num)]; norm_num
  have hs := sqrt_nonneg (7706554819674801 / 2 : ℝ)
  generalize √(7706554819674801 / 2 : ℝ) = r at *
  have := rn_eval (x := r) 8331534962322097 (-27)
    (by rw [abs_of_nonneg hs]; norm_num at *; linarith) (by rw [abs_of_nonneg hs]; norm_num at *; linarith)
    (by rw [abs_lt]; norm_num at *; constructor <;> linarith)
  rw [this]; norm_num

theorem wquot : rn ((8331534962322098 / 2 ^ 27) / (8331534962322097 / 2 ^ 27) : ℝ) = 1 + 1 / 2 ^ 52 := by
  have := rn_eval (x := ((8331534962322098 / 2 ^ 27) / (8331534962322097 / 2 ^ 27) : ℝ)) 4503599627370497 (-52)
    (by norm_num) (by norm_num) (by norm_num [abs_lt])
  rw [this]; norm_num

theorem rn_rn (x : ℝ) : rn (rn x) = rn x := rn_rep (rep_rn x)

section Witness
variable {A : Arith} (hA : A.Double)
include hA

theorem dot1 (a b : ℝ) : A.dot ⟨a, 0, 0⟩ ⟨b, 0, 0⟩ = rn (a * b) := by
  unfold Arith.dot
  rw [hA.rd]
  simp only [mul_zero, rn_zero, add_zero, rn_rn]

theorem cos_witness : fbCosA A ⟨wa, 0, 0⟩ ⟨wb, 0, 0⟩ = some (1 + 1 / 2 ^ 52) ∧
    fbCosA A ⟨wa, 0, 0⟩ ⟨-wb, 0, 0⟩ = some (-(1 + 1 / 2 ^ 52)) := by
  constructor
  · unfold fbCosA
    rw [root_run hA, dot1 hA, dot1 hA, dot1 hA, wa_sq, wb_sq, wab, wprod, wroot]
    simp only [Option.bind_eq_bind, Option.bind_some, Arith.div?]
    rw [div?_ok (by norm_num), hA.rd, Option.map_some, wquot]
  · unfold fbCosA
    rw [root_run hA, dot1 hA, dot1 hA, dot1 hA, neg_mul_neg, mul_neg, rn_neg, wa_sq, wb_sq, wab, wprod, wroot]
    simp only [Option.bind_eq_bind, Option.bind_some, Arith.div?]
    rw [div?_ok (by norm_num), hA.rd, Option.map_some, neg_div, rn_neg, wquot]

theorem con_witness {mu safe : ℝ} (hmu : 0 < mu) (hs : 0 < safe) :
    fbIneqA A ⟨wa, 0, 0⟩ ⟨wb, 0, 0⟩ mu safe = none ∧ fbIneqA A ⟨wa, 0, 0⟩ ⟨-wb, 0, 0⟩ mu safe = none := by
  have hne : (⟨wa, 0, 0⟩ : V3 ℝ) ≠ 0 := by
    intro h; have := congrArg V3.x h; simp [wa] at this
  constructor
  · obtain ⟨t, -, -, hrun⟩ := turn_err hA (vout := ⟨wb, 0, 0⟩) hmu hs hne
    rw [hrun, (cos_witness hA).1, Option.bind_some, Arith.acos?, if_neg (by norm_num)]; rfl
  · obtain ⟨t, -, -, hrun⟩ := turn_err hA (vout := ⟨-wb, 0, 0⟩) hmu hs hne
    rw [hrun, (cos_witness hA).2, Option.bind_some, Arith.acos?, if_neg (by norm_num)]; rfl

end Witness

/-- **C84.** The inequality constraint of a fly-by that changes the speed a little along its direction can be a NaN: the quotient handed to
`std::acos` is rounded above 1. -/
theorem C84_parallel_nan {A : Arith} (hA : A.Double) {mu safe : ℝ} (hmu : 0 < mu) (hs : 0 < safe) :
    (fbConA A ⟨wa, 0, 0⟩ ⟨wb, 0, 0⟩ mu safe).2 = none := (con_witness hA hmu hs).1

/-- **C84.** Near a reversal the impulse can be missed altogether: the quotient is rounded below -1, the excess of the turn is a NaN, the comparison
with zero is false, and the turn passes for one within reach. A reversal at 7.9 km/s whose exact cost is over 13 km/s is
reported to cost 2^-13 m/s, for every planet that can turn this velocity by at most 60°. -/
theorem C84_reversal_free {A : Arith} (hA : A.Double) {mu safe : ℝ} (hmu : 0 < mu) (hs : 0 < safe) (hturn : mu ≤ safe * wa ^ 2) :
    fbDvA A ⟨wa, 0, 0⟩ ⟨-wb, 0, 0⟩ mu safe = some (1 / 2 ^ 13) ∧ 13000 < fbDv ⟨wa, 0, 0⟩ ⟨-wb, 0, 0⟩ mu safe ∧
    (fbConA A ⟨wa, 0, 0⟩ ⟨-wb, 0, 0⟩ mu safe).2 = none := by
  have ha0 : 0 < wa := by unfold wa; positivity
  have hb0 : 0 < wb := by unfold wb; positivity
  have hne : (⟨wa, 0, 0⟩ : V3 ℝ) ≠ 0 := by
    intro h; have := congrArg V3.x h; simp at this; linarith
  have hno : (⟨-wb, 0, 0⟩ : V3 ℝ) ≠ 0 := by
    intro h; have := congrArg V3.x h; simp at this; linarith
  refine ⟨?_, ?_, (con_witness hA hmu hs).2⟩
  · have ra : Rep wa := ⟨129085513, -14, by norm_num, by unfold wa; norm_num⟩
    have rb : Rep wb := ⟨129085515, -14, by norm_num, by unfold wb; norm_num⟩
    have rd : Rep (wb - wa) := ⟨1, -13, by norm_num, by unfold wa wb; norm_num⟩
    unfold fbDvA
    rw [(con_witness hA hmu hs).2]
    dsimp only
    unfold fbDvFeasA Arith.sqrt?
    rw [dot1 hA, dot1 hA, neg_mul_neg, sqrt?_ok (rn_nonneg (by positivity)), sqrt?_ok (rn_nonneg (by positivity)), hA.rd]
    simp only [Option.map_some, Option.bind_eq_bind, Option.bind_some, rn_sqrt_sq ha0 ra, rn_sqrt_sq hb0 rb, rn_rep rd]
    show some _ = _
    congr 1
    unfold wa wb; norm_num [abs_of_pos]
  · have na : norm (⟨wa, 0, 0⟩ : V3 ℝ) = wa := by
      unfold V3.norm V3.dot; simp only [mul_zero, add_zero]; exact sqrt_mul_self ha0.le
    have nb : norm (⟨-wb, 0, 0⟩ : V3 ℝ) = wb := by
      unfold V3.norm V3.dot; simp only [mul_zero, add_zero, neg_mul_neg]; exact sqrt_mul_self hb0.le
    have hang : angleV ⟨wa, 0, 0⟩ ⟨-wb, 0, 0⟩ = π := by
      unfold angleV
      rw [na, nb]
      unfold V3.dot
      rw [show (wa * -wb + 0 * 0 + 0 * 0) / (wa * wb) = -1 by field_simp; ring, arccos_neg_one]
    have hV : V3.dot (⟨wa, 0, 0⟩ : V3 ℝ) ⟨wa, 0, 0⟩ = wa ^ 2 := by unfold V3.dot; ring
    have hx : 1 ≤ safe * wa ^ 2 / mu := by rw [le_div_iff₀ hmu]; linarith
    obtain ⟨t0, -⟩ := turnAngle_mem hmu (by positivity : 0 < wa ^ 2) hs
    have ht : turnAngle safe (wa ^ 2) mu ≤ π / 3 := by
      unfold turnAngle
      have : arcsin (1 / (1 + safe * wa ^ 2 / mu)) ≤ π / 6 := by
        rw [arcsin_le_iff_le_sin' ⟨by linarith [pi_pos], by linarith [pi_pos]⟩, sin_pi_div_six]
        exact one_div_le_one_div_of_le (by norm_num) (by linarith)
      linarith
    rw [fbDv_gap hmu hs hne hno, na, nb, hang, hV, max_eq_right (by linarith [pi_pos])]
    unfold gap
    have hc : cos (π - turnAngle safe (wa ^ 2) mu) ≤ -(1 / 2) := by
      rw [cos_pi_sub, neg_le_neg_iff, ← cos_pi_div_three]
      exact cos_le_cos_of_nonneg_of_le_pi t0.le (by linarith [pi_pos]) ht
    apply Real.lt_sqrt_of_sq_lt
    have h1 : 2 * (wb * wa) * cos (π - turnAngle safe (wa ^ 2) mu) ≤ 2 * (wb * wa) * (-(1 / 2)) :=
      mul_le_mul_of_nonneg_left hc (by positivity)
    have h2 : (13000 : ℝ) ^ 2 < wb ^ 2 + wa ^ 2 + wb * wa := by unfold wa wb; norm_num
    linarith

/-! ## Concrete cases -/

/-- Venus (`jpl_lp`, src/udpla/jpl_lp.cpp:69-75): the hypothesis of `C84_reversal_free`. -/
example : (0 : ℝ) < 324859e9 ∧ (0 : ℝ) < 6052000 * 1.1 ∧ (324859e9 : ℝ) ≤ 6052000 * 1.1 * wa ^ 2 := by
  unfold wa; norm_num

/-- A correctly rounded library is accurate. -/
noncomputable def Arith.rounded : Arith := ⟨rn, fun x => rn (arccos x), fun x => rn (arcsin x), fun x => rn (Real.cos x)⟩

theorem Arith.rounded_double : Arith.rounded.Double where
  rd := rfl
  acos x h1 h2 := by
    have h := rn_err (arccos x)
    have := arccos_le_pi x
    have := pi_lt_d4
    rw [abs_of_nonneg (arccos_nonneg x)] at h
    refine h.trans ?_
    rw [div_le_iff₀ (by norm_num)]; norm_num; linarith
  asin x h1 h2 := by
    have h := rn_err (arcsin x)
    have := arcsin_le_pi_div_two x
    have := neg_pi_div_two_le_arcsin x
    have := pi_lt_d4
    have h3 : |arcsin x| ≤ 2 := by rw [abs_le]; constructor <;> linarith
    refine h.trans ?_
    rw [div_le_iff₀ (by norm_num)]; norm_num; linarith
  cos x := by
    have h := rn_err (Real.cos x)
    have h3 := abs_cos_le_one x
    refine h.trans ?_
    rw [div_le_iff₀ (by norm_num)]; norm_num; linarith
  acos_mem x _ _ := ⟨rn_nonneg (arccos_nonneg x), rn_mono (arccos_le_pi x)⟩
  acos_one := by show rn (arccos 1) = 0; rw [arccos_one, rn_zero]
  asin_nonneg x h1 h2 := rn_nonneg (arcsin_nonneg.2 h1)

/-- A right-angle turn meets the hypotheses of `C84_con_partial` and `C84_dv_partial`. -/
example : (⟨6000, 0, 0⟩ : V3 ℝ) ≠ 0 ∧ (⟨0, 6500, 0⟩ : V3 ℝ) ≠ 0 ∧ angleV ⟨6000, 0, 0⟩ ⟨0, 6500, 0⟩ < π - 1 / 10 ^ 7 := by
  refine ⟨fun h => ?_, fun h => ?_, ?_⟩
  · have := congrArg V3.x h; simp at this
  · have := congrArg V3.y h; simp at this
  · unfold angleV V3.dot
    norm_num
    have := pi_gt_three
    linarith

end Kep3
