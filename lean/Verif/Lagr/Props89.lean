import Verif.Lagr.Double
import Verif.Lagr.Props88

/-!
# The Lagrange coefficients in double precision, near a parabola

On an ellipse `propagate_lagrangian` computes `F = 1 - a / R0 * (1 - cos DE)`. In doubles `1 - cos DE` is 0 or at least `2^-53`: the
coefficient moves in steps of `a / R0 * 2^-53`, whatever the accuracy of the root finder and of the library.
-/

namespace Kep3
open Real V3 Fl

/-- The double next to 1. -/
theorem one_sub_rep {c : ℝ} (hr : Rep c) (h1 : c ≤ 1) : c = 1 ∨ 1 / 2 ^ 53 ≤ 1 - c := by
  rcases h1.eq_or_lt with h | h
  · exact .inl h
  right
  by_cases hh : c ≤ 1 / 2
  · norm_num at *; linarith
  obtain ⟨m, e, a1, a2, rfl⟩ := significand (by linarith [not_le.1 hh]) hr
  have hm1 : (2 ^ 52 : ℝ) ≤ m := by exact_mod_cast a1
  have hm2 : (m : ℝ) ≤ 2 ^ 53 - 1 := by
    have : m ≤ 2 ^ 53 - 1 := by omega
    exact_mod_cast this
  have he : e ≤ -53 := by
    by_contra hc
    have h2 : (2 : ℝ) ^ (-52 : ℤ) ≤ 2 ^ e := zpow_le_zpow_right₀ (by norm_num) (by omega)
    have h3 : (2 ^ 52 : ℝ) * 2 ^ (-52 : ℤ) ≤ m * 2 ^ e := mul_le_mul hm1 h2 (by positivity) (by linarith)
    norm_num at h3
    linarith
  have h2 : (2 : ℝ) ^ e ≤ 2 ^ (-53 : ℤ) := zpow_le_zpow_right₀ (by norm_num) he
  have h3 : (m : ℝ) * 2 ^ e ≤ (2 ^ 53 - 1) * 2 ^ (-53 : ℤ) := mul_le_mul hm2 h2 (by positivity) (by norm_num)
  norm_num at h3 ⊢
  linarith

section
variable {A : Libm} (hA : A.Double)
include hA

/-- `1 - std::cos(DE)` is 0 or not small. -/
theorem one_sub_cosD (DE : ℝ) : (A.rd (1 - A.cos DE) = 0 ∨ 1 / 2 ^ 53 ≤ A.rd (1 - A.cos DE)) ∧ A.rd (1 - A.cos DE) ≤ 2 := by
  obtain ⟨hr, h0, h1⟩ := hA.cos_range DE
  rw [hA.arith.rd]
  refine ⟨?_, ?_⟩
  · rcases one_sub_rep hr h1 with h | h
    · left; rw [h, sub_self, rn_zero]
    · right
      have := rn_mono h
      rwa [rn_rep ⟨1, -53, by norm_num, by norm_num⟩] at this
  · have := rn_mono (show 1 - A.cos DE ≤ 2 by linarith)
    rwa [rn_rep (x := 2) ⟨1, 1, by norm_num, by norm_num⟩] at this

/-- The first two coefficients. -/
theorem coeffED_FG {mu R0 sigma0 a sqrta DE : ℝ} {q : FG} (hR : R0 ≠ 0) (hmu : 0 < mu)
    (h : coeffED A mu R0 sigma0 a sqrta DE = some q) :
    q.F = rn (1 - rn (rn (a / R0) * rn (1 - A.cos DE))) ∧
    q.G = rn (rn (rn (rn (a * sigma0) / rn √mu) * rn (1 - A.cos DE)) + rn (rn (R0 * rn √(rn (a / mu))) * A.sin DE)) := by
  have hm : rn √mu ≠ 0 := (stumpff_root_err hmu).2.2.1.ne'
  unfold coeffED at h
  rw [divD hA hR, hA.arith.rd, divD hA hm, divD hA hmu.ne'] at h
  simp only [Option.bind_eq_bind, Option.bind_some] at h
  obtain ⟨q3, h3, h⟩ := Option.bind_eq_some_iff.1 h
  obtain ⟨q4, h4, h⟩ := Option.bind_eq_some_iff.1 h
  obtain ⟨q4', h4', h⟩ := Option.bind_eq_some_iff.1 h
  obtain ⟨q5, h5, h⟩ := Option.bind_eq_some_iff.1 h
  have e3 : q3 = rn √(rn (a / mu)) := by
    unfold Arith.sqrt? at h3
    rw [hA.arith.rd] at h3
    obtain ⟨t, ht, rfl⟩ := Option.map_eq_some_iff.1 h3
    unfold sqrt? at ht
    split at ht
    · exact nomatch ht
    · rw [← Option.some.inj ht]
  subst e3
  simp only [Option.pure_def, Option.some.injEq] at h
  subst h
  exact ⟨rfl, rfl⟩

/-- **C89, granularity**: on an ellipse the computed coefficient `F` is 1, or smaller than 1 by the semi-major axis over the distance
times `2^-53`, rounded. Nothing in between is ever returned, for any root finder. -/
theorem C89_granularity {mu R0 sigma0 a sqrta DE : ℝ} {q : FG} (hR : 0 < R0) (hmu : 0 < mu) (ha : 0 < a)
    (h : coeffED A mu R0 sigma0 a sqrta DE = some q) : q.F = 1 ∨ q.F ≤ 1 - (1 - 4 * u) * (a / R0 / 2 ^ 53) + 2 * u := by
  rw [(coeffED_FG hA hR.ne' hmu h).1]
  obtain ⟨hc, -⟩ := one_sub_cosD hA DE
  rw [hA.arith.rd] at hc
  generalize rn (1 - A.cos DE) = c at *
  rcases hc with rfl | hc
  · left; rw [mul_zero, rn_zero, sub_zero, rn_rep rep_one]
  right
  have hu := u_pos
  have hu' := u_small
  have hQ : 0 < a / R0 := by positivity
  have e1 := rn_err' (a / R0)
  rw [abs_of_pos hQ] at e1
  generalize a / R0 = Q at *
  obtain ⟨e1, -⟩ := abs_le.1 e1
  generalize rn Q = q1 at *
  have hq1 : Q * (1 - u) ≤ q1 := by linarith
  have hk : Q * (1 - u) * (1 / 2 ^ 53) ≤ q1 * c :=
    mul_le_mul hq1 hc (by positivity) (le_trans (mul_nonneg hQ.le (by linarith)) hq1)
  have hk0 : 0 ≤ q1 * c := le_trans (mul_nonneg (mul_nonneg hQ.le (by linarith)) (by positivity)) hk
  have e2 := rn_err' (q1 * c)
  rw [abs_of_nonneg hk0] at e2
  obtain ⟨e2, -⟩ := abs_le.1 e2
  generalize q1 * c = k at *
  have hm : (1 - u) * k ≤ rn k := by linarith
  generalize rn k = m at *
  have hQ' : Q * (1 - u) * (1 / 2 ^ 53) = (1 - u) * (Q / 2 ^ 53) := by ring
  rw [hQ'] at hk
  have hW : 0 ≤ Q / 2 ^ 53 := by positivity
  generalize Q / 2 ^ 53 = W at *
  have hm2 : (1 - 2 * u) * W ≤ m := by
    have := mul_le_mul_of_nonneg_left hk (show 0 ≤ 1 - u by linarith)
    nlinarith [mul_nonneg (mul_nonneg hu.le hu.le) hW]
  have e3 := rn_err' (1 - m)
  obtain ⟨-, e3⟩ := abs_le.1 e3
  have hm0 : 0 ≤ m := le_trans (mul_nonneg (by linarith) hW) hm2
  have h1m : |1 - m| ≤ 1 + m := by rw [abs_le]; constructor <;> linarith
  have h3 : rn (1 - m) ≤ 1 - m + u * (1 + m) := by nlinarith
  have h4 : (1 - u) * ((1 - 2 * u) * W) ≤ (1 - u) * m := mul_le_mul_of_nonneg_left hm2 (by linarith)
  nlinarith [mul_nonneg (mul_nonneg hu.le hu.le) hW, mul_nonneg hu.le hW]

theorem cosD_err (DE : ℝ) : 0 ≤ rn (1 - A.cos DE) ∧ rn (1 - A.cos DE) ≤ 2 ∧ |rn (1 - A.cos DE) - (1 - Real.cos DE)| ≤ 4 * u := by
  obtain ⟨hr, h0, h1⟩ := hA.cos_range DE
  have h2 := (one_sub_cosD hA DE).2
  rw [hA.arith.rd] at h2
  have hc := hA.arith.cos DE
  have hc' : |A.cos DE - Real.cos DE| ≤ 2 * u := hc.trans (by unfold u; norm_num)
  have hr := rn_err' (1 - A.cos DE)
  rw [abs_of_nonneg (show 0 ≤ 1 - A.cos DE by linarith)] at hr
  have hu := u_pos
  refine ⟨rn_nonneg (by linarith), h2, ?_⟩
  obtain ⟨c1, c2⟩ := abs_le.1 hc'
  obtain ⟨d1, d2⟩ := abs_le.1 hr
  rw [abs_le]; constructor <;> nlinarith

omit hA in
theorem prod_err {Q q c C : ℝ} (hQ : 0 ≤ Q) (hq : |q - Q| ≤ u * Q) (h0 : 0 ≤ c) (h2 : c ≤ 2) (hc : |c - C| ≤ 4 * u) :
    |q * c - Q * C| ≤ 6.2 * u * Q := by
  have e : q * c - Q * C = (q - Q) * c + Q * (c - C) := by ring
  have h3 : |(q - Q) * c| ≤ u * Q * 2 := by
    rw [abs_mul, abs_of_nonneg h0]; exact mul_le_mul hq h2 h0 ((abs_nonneg _).trans hq)
  have h4 : |Q * (c - C)| ≤ Q * (4 * u) := by
    rw [abs_mul, abs_of_nonneg hQ]; exact mul_le_mul_of_nonneg_left hc hQ
  rw [e]
  have := abs_add_le ((q - Q) * c) (Q * (c - C))
  nlinarith [mul_nonneg u_pos.le hQ]

omit hA in
theorem round_sub {P p Q : ℝ} (hu : 0 < u) (hu' : u ≤ 1 / 10 ^ 15) (hQ : 0 ≤ Q) (h : |p - P| ≤ 6.2 * u * Q) (hP : |P| ≤ 2.1 * Q) :
    |rn (1 - rn p) - (1 - P)| ≤ 12 * u * (1 + Q) := by
  have huQ : 0 ≤ u * Q := by positivity
  have hsm : u * (u * Q) ≤ 1 / 10 ^ 15 * (u * Q) := mul_le_mul_of_nonneg_right hu' huQ
  have hp : |p| ≤ 2.2 * Q := by
    have := abs_add_le (p - P) P
    rw [sub_add_cancel] at this
    nlinarith
  have e1 : |rn p - p| ≤ 2.2 * (u * Q) := (rn_err' p).trans (by nlinarith)
  have e2 : |rn p - P| ≤ 8.4 * (u * Q) := by
    have := abs_add_le (rn p - p) (p - P)
    rw [sub_add_sub_cancel] at this
    linarith
  have e3 : |1 - rn p| ≤ 1 + 2.2 * Q := by
    have h1 := abs_add_le (rn p - P) P
    rw [sub_add_cancel] at h1
    have h2 := abs_sub (1 : ℝ) (rn p)
    rw [abs_one] at h2
    nlinarith
  have e4 := (rn_err' (1 - rn p)).trans (mul_le_mul_of_nonneg_left e3 hu.le)
  have := abs_add_le (rn (1 - rn p) - (1 - rn p)) (P - rn p)
  rw [abs_sub_comm P] at this
  rw [show rn (1 - rn p) - (1 - P) = rn (1 - rn p) - (1 - rn p) + (P - rn p) by ring]
  nlinarith

/-- **C89, what holds**: given the orbit and the anomaly, the computed `F` is off by at most a dozen units in the last place of
`1 + a / R0`. -/
theorem C89_F_partial {mu R0 sigma0 a sqrta DE : ℝ} {q : FG} (hR : 0 < R0) (hmu : 0 < mu) (ha : 0 < a)
    (h : coeffED A mu R0 sigma0 a sqrta DE = some q) : |q.F - (1 - a / R0 * (1 - Real.cos DE))| ≤ 12 * u * (1 + a / R0) := by
  rw [(coeffED_FG hA hR.ne' hmu h).1]
  have hu := u_pos
  have hu' := u_small
  have hQ : 0 < a / R0 := by positivity
  have e1 := rn_err' (a / R0)
  rw [abs_of_pos hQ] at e1
  generalize a / R0 = Q at *
  obtain ⟨c0, c2, ec⟩ := cosD_err hA DE
  generalize rn (1 - A.cos DE) = c at *
  generalize 1 - Real.cos DE = C at *
  generalize rn Q = q1 at *
  have ep : |q1 * c - Q * C| ≤ 6.2 * u * Q := prod_err hQ.le e1 c0 c2 ec
  have hC2 : |Q * C| ≤ 2.1 * Q := by
    obtain ⟨a1, a2⟩ := abs_le.1 ec
    rw [abs_mul, abs_of_pos hQ, mul_comm]
    refine mul_le_mul_of_nonneg_right ?_ hQ.le
    rw [abs_le]; constructor <;> linarith
  have h3 := round_sub hu hu' hQ.le ep hC2
  exact h3

end

/-! ## An ellipse next to a parabola -/

/-- The computed orbit. -/
theorem nearPar_orbit {A : Libm} (hA : A.Double) :
    A.rd √(A.dot nearPar.r nearPar.r) = 256 ∧ orbitD A nearPar 1 = some (2 ^ 60, 16) := by
  have r256 : rn (256 : ℝ) = 256 := rn_rep ⟨1, 8, by norm_num, by norm_num⟩
  have r1 : rn (1 : ℝ) = 1 := rn_rep rep_one
  have hd : ∀ a b, b ≠ 0 → A.div? a b = some (rn (a / b)) := fun a b h => divD hA h
  have hR : A.rd √(A.dot nearPar.r nearPar.r) = 256 := by
    have e : A.dot nearPar.r nearPar.r = 256 * 256 := by
      unfold Arith.dot
      rw [hA.arith.rd]
      have : rn (256 * 256 : ℝ) = 256 * 256 := rn_rep ⟨1, 16, by norm_num, by norm_num⟩
      simp only [nearPar, mul_zero, rn_zero, add_zero, this]
    rw [e, Real.sqrt_mul_self (by norm_num), hA.arith.rd, r256]
  refine ⟨hR, ?_⟩
  have e : A.dot nearPar.v nearPar.v = 1 / 2 ^ 7 - 1 / 2 ^ 60 := by
    unfold Arith.dot; rw [hA.arith.rd]; exact nearPar_v2
  have e1 : rn (1 / 256 : ℝ) = 1 / 2 ^ 8 := by
    rw [rn_rep ⟨1, -8, by norm_num, by norm_num⟩]; norm_num
  have e2 : rn ((1 / 2 ^ 7 - 1 / 2 ^ 60) / 2 : ℝ) = 1 / 2 ^ 8 - 1 / 2 ^ 61 := by
    rw [rn_rep ⟨2 ^ 53 - 1, -61, by norm_num, by push_cast; norm_num⟩]; norm_num
  have e3 : rn (1 / 2 ^ 8 - 1 / 2 ^ 61 - 1 / 2 ^ 8 : ℝ) = -1 / 2 ^ 61 := by
    rw [rn_rep ⟨-1, -61, by norm_num, by norm_num⟩]; norm_num
  have e4 : rn (-1 / 2 : ℝ) = -1 / 2 := rn_rep ⟨-1, -1, by norm_num, by norm_num⟩
  have e5 : rn (-1 / 2 / (-1 / 2 ^ 61) : ℝ) = 2 ^ 60 := by
    rw [rn_rep ⟨1, 60, by norm_num, by norm_num⟩]; norm_num
  have e6 : A.dot nearPar.r nearPar.v = 16 := by
    unfold Arith.dot
    rw [hA.arith.rd]
    have : rn (16 : ℝ) = 16 := rn_rep ⟨1, 4, by norm_num, by norm_num⟩
    simp only [nearPar, mul_zero, zero_mul, rn_zero, add_zero, show (256 * (1 / 16) : ℝ) = 16 by norm_num, this]
  unfold orbitD
  dsimp only
  rw [hR, e, hd _ _ (by norm_num : (256 : ℝ) ≠ 0), e1, hA.arith.rd, e2]
  simp only [Option.bind_eq_bind, Option.bind_some]
  rw [e3, e4, hd _ _ (by norm_num), e5, sqrt_one, r1, hd _ _ one_ne_zero, e6, div_one, rn_rep (x := (16 : ℝ)) ⟨1, 4, by norm_num, by norm_num⟩]
  rfl

theorem tryRoot_cases {s : Option (ℝ × ℕ)} {k : ℝ → Option FG} {t : Res (Option FG)} (h : tryRoot s k = t) :
    t = .err .domainError ∨ t = .ok none ∨ ∃ DE, t = .ok (k DE) := by
  subst h
  unfold tryRoot
  rcases s with _ | s
  · exact .inr (.inl rfl)
  · by_cases h : s.2 = 100
    · left; simp only [h, if_true]
    · right; right; exact ⟨s.1, by simp only [h, if_false]⟩

/-- The call, up to the answer of the root finder. -/
theorem nearPar_runE {A : Libm} (hA : A.Double) (sv : SolverD) :
    propagateLagrangianD A sv nearPar 1536 1 = .err .domainError ∨ propagateLagrangianD A sv nearPar 1536 1 = .ok none ∨
      ∃ DE q, coeffED A 1 256 16 (2 ^ 60) (2 ^ 30) DE = some q ∧
        propagateLagrangianD A sv nearPar 1536 1 = .ok (some (q.stateD A nearPar)) := by
  obtain ⟨hR, ho⟩ := nearPar_orbit hA
  have hs : A.rd √(2 ^ 60 : ℝ) = 2 ^ 30 := by
    rw [show (2 ^ 60 : ℝ) = 2 ^ 30 * 2 ^ 30 by norm_num, Real.sqrt_mul_self (by positivity), hA.arith.rd]
    exact rn_rep ⟨1, 30, by norm_num, by norm_num⟩
  unfold propagateLagrangianD
  dsimp only
  rw [if_neg (by norm_num), ho, hR]
  dsimp only
  rw [if_pos (show (0 : ℝ) < 2 ^ 60 by positivity)]
  unfold lagrED
  rw [hs]
  dsimp only
  generalize ht : tryRoot _ _ = t
  rcases tryRoot_cases ht with h | h | ⟨DE, h⟩
  · left; rw [h]; rfl
  · right; left; rw [h]; rfl
  · rw [h]
    cases hq : coeffED A 1 256 16 (2 ^ 60) (2 ^ 30) DE with
    | none => right; left; rfl
    | some q => right; right; exact ⟨DE, q, hq, rfl⟩

/-- What rounding does to the difference of the coordinates. -/
theorem nearPar_diff {F G g x y : ℝ} (hg : g = G / 16) (hy : |y - g| ≤ 4 * u * |g|) (hx : |x - (256 * F + g)| ≤ u * |256 * F + g|)
    : |x - y - 256 * F| ≤ u * (256 * |F| + 5 * |g|) := by
  have h1 := abs_add_le (256 * F) g
  rw [abs_mul, abs_of_pos (show (0 : ℝ) < 256 by norm_num)] at h1
  have h2 := abs_add_le (x - (256 * F + g)) (g - y)
  rw [abs_sub_comm g] at h2
  rw [show x - y - 256 * F = x - (256 * F + g) + (g - y) by ring]
  have := mul_le_mul_of_nonneg_left h1 u_pos.le
  nlinarith

theorem rep_scale {x : ℝ} (h : Rep x) (e : ℤ) : Rep (x * 2 ^ e) := by
  obtain ⟨m, f, h1, h2⟩ := h
  exact ⟨m, f + e, h1, by rw [h2, zpow_add₀ two_ne_zero]; ring⟩

theorem stateD_diff {A : Libm} (hA : A.Double) {q : FG} (hF : Rep q.F) (hG : Rep q.G) :
    |(q.stateD A nearPar).r.x - (q.stateD A nearPar).r.y - 256 * q.F| ≤ u * (256 * |q.F| + 5 * |q.G / 16|) := by
  have hu := u_pos
  have hu' := u_small
  refine nearPar_diff (G := q.G) rfl ?_ ?_
  · have e : (q.stateD A nearPar).r.y = rn (rn (q.G / 16 * (1 - u))) := by
      unfold FG.stateD
      rw [hA.arith.rd]
      simp only [nearPar, mul_zero, rn_zero, zero_add]
      congr 2
      unfold u; ring
    rw [e]
    generalize q.G / 16 = g
    have h1 := rn_err' (g * (1 - u))
    have hg : |g * (1 - u)| ≤ |g| := by
      rw [abs_mul, abs_of_pos (show 0 < 1 - u by linarith)]; nlinarith [abs_nonneg g]
    have h0 : |g * (1 - u) - g| ≤ u * |g| := by
      rw [show g * (1 - u) - g = -(u * g) by ring, abs_neg, abs_mul, abs_of_pos hu]
    have h2 := rn_le_two hg
    have h3 := rn_err' (rn (g * (1 - u)))
    have h4 := abs_add_three (rn (rn (g * (1 - u))) - rn (g * (1 - u))) (rn (g * (1 - u)) - g * (1 - u)) (g * (1 - u) - g)
    rw [sub_add_sub_cancel, sub_add_sub_cancel] at h4
    have h5 := mul_le_mul_of_nonneg_left h2 hu.le
    have h6 := mul_le_mul_of_nonneg_left hg hu.le
    have h7 : u * (|g| * (1 + u)) ≤ 2 * (u * |g|) := by
      have : 0 ≤ u * |g| := by positivity
      nlinarith
    linarith
  · have e : (q.stateD A nearPar).r.x = rn (256 * q.F + q.G / 16) := by
      unfold FG.stateD
      rw [hA.arith.rd]
      simp only [nearPar]
      have a1 := rn_rep (rep_scale hF 8)
      have a2 := rn_rep (rep_scale hG (-4))
      norm_num at a1 a2
      rw [a1, a2]
      ring_nf
    rw [e]
    exact rn_err' _

theorem nearPar_real {c w F G D : ℝ} (hu : 0 < u) (hu' : u ≤ 1 / 10 ^ 15) (hc : c = 0 ∨ 1 / 2 ^ 53 ≤ c)
    (hF : F = rn (1 - rn (2 ^ 52 * c))) (hG : G = rn (rn (2 ^ 64 * c) + w)) (hw : |w| ≤ 2 ^ 38 * 1.1 * (1 + u))
    (hD : |D - 256 * F| ≤ u * (256 * |F| + 5 * |G / 16|)) : 255 ≤ D ∨ D ≤ 130 := by
  have hw' : |w| ≤ 2 ^ 38 * 1.2 := by nlinarith
  rw [abs_div, abs_of_pos (show (0 : ℝ) < 16 by norm_num)] at hD
  rcases hc with rfl | hc
  · left
    rw [mul_zero, rn_zero, zero_add] at hG
    rw [mul_zero, rn_zero, sub_zero, rn_rep rep_one] at hF
    subst hF
    have h1 := rn_le_two hw'
    rw [← hG] at h1
    have h2 : |G| ≤ 2 ^ 38 * 1.3 := by nlinarith
    rw [abs_one] at hD
    have h3 : u * (256 * 1 + 5 * (|G| / 16)) ≤ 1 / 10 ^ 15 * (256 * 1 + 5 * (2 ^ 38 * 1.3 / 16)) :=
      mul_le_mul hu' (by linarith) (by positivity) (by norm_num)
    have := (abs_le.1 hD).1
    norm_num at *
    linarith
  · right
    obtain ⟨W, rfl⟩ : ∃ W, c = W / 2 ^ 52 := ⟨2 ^ 52 * c, by ring⟩
    have hW : 1 / 2 ≤ W := by
      have : (1 / 2 ^ 53 : ℝ) * 2 ^ 52 ≤ W / 2 ^ 52 * 2 ^ 52 := mul_le_mul_of_nonneg_right hc (by positivity)
      rw [div_mul_cancel₀ _ (by positivity)] at this
      norm_num at this; linarith
    rw [show (2 ^ 52 * (W / 2 ^ 52) : ℝ) = W by ring] at hF
    rw [show (2 ^ 64 * (W / 2 ^ 52) : ℝ) = 2 ^ 12 * W by ring] at hG
    have k1 := rn_err' W
    rw [abs_of_pos (show 0 < W by linarith)] at k1
    generalize rn W = k at *
    obtain ⟨k1, k2⟩ := abs_le.1 k1
    have hk1 : 0.999 * W ≤ k := by nlinarith
    have hk2 : k ≤ 1.001 * W := by nlinarith
    have f1 := rn_err' (1 - k)
    rw [← hF] at f1
    have hab : |1 - k| ≤ 1 + 1.001 * W := by rw [abs_le]; constructor <;> linarith
    have f2 : |F - (1 - k)| ≤ 0.001 * (1 + W) := by
      refine f1.trans ?_
      have : u * |1 - k| ≤ 1 / 10 ^ 15 * (1 + 1.001 * W) := mul_le_mul hu' hab (abs_nonneg _) (by norm_num)
      norm_num at *; linarith
    obtain ⟨f3, f4⟩ := abs_le.1 f2
    have hFa : |F| ≤ 1.1 * (1 + W) := by rw [abs_le]; constructor <;> linarith
    have g1 : |(2 ^ 12 : ℝ) * W| ≤ 2 ^ 12 * W := by rw [abs_of_nonneg]; positivity
    have g2 := rn_le_two g1
    have g3 := abs_add_le (rn (2 ^ 12 * W)) w
    have g2' : 2 ^ 12 * W * (1 + u) ≤ 2 ^ 12 * W * 1.1 := mul_le_mul_of_nonneg_left (by linarith) (by positivity)
    have g4 : |rn (2 ^ 12 * W) + w| ≤ 2 ^ 12 * W * 1.1 + 2 ^ 38 * 1.2 :=
      (g3.trans (add_le_add g2 hw')).trans (add_le_add g2' le_rfl)
    have g5 := rn_le_two g4
    rw [← hG] at g5
    have g6 : (2 ^ 12 * W * 1.1 + 2 ^ 38 * 1.2) * (1 + u) ≤ (2 ^ 12 * W * 1.1 + 2 ^ 38 * 1.2) * 1.1 :=
      mul_le_mul_of_nonneg_left (by linarith) (by positivity)
    have h3 : u * (256 * |F| + 5 * (|G| / 16)) ≤ 1 / 10 ^ 15 * (256 * (1.1 * (1 + W)) + 5 * ((2 ^ 12 * W * 1.1 + 2 ^ 38 * 1.2) * 1.1 / 16)) :=
      mul_le_mul hu' (by linarith) (by positivity) (by norm_num)
    have := (abs_le.1 hD).2
    norm_num at *
    linarith

/-- The difference of the two coordinates of the computed position. -/
theorem nearPar_xy {A : Libm} (hA : A.Double) {DE : ℝ} {q : FG} (h : coeffED A 1 256 16 (2 ^ 60) (2 ^ 30) DE = some q) :
    255 ≤ (q.stateD A nearPar).r.x - (q.stateD A nearPar).r.y ∨ (q.stateD A nearPar).r.x - (q.stateD A nearPar).r.y ≤ 130 := by
  have r1 : rn (1 : ℝ) = 1 := rn_rep rep_one
  obtain ⟨hF, hG⟩ := coeffED_FG hA (by norm_num) one_pos h
  have hF' : Rep q.F := by rw [hF]; exact rep_rn _
  have hG' : Rep q.G := by rw [hG]; exact rep_rn _
  rw [sqrt_one, r1, div_one, div_one] at hG
  have e1 : rn (2 ^ 60 / 256 : ℝ) = 2 ^ 52 := by rw [rn_rep ⟨1, 52, by norm_num, by norm_num⟩]; norm_num
  have e2 : rn (2 ^ 60 * 16 : ℝ) = 2 ^ 64 := by rw [rn_rep ⟨1, 64, by norm_num, by norm_num⟩]; norm_num
  have e2' : rn (2 ^ 64 : ℝ) = 2 ^ 64 := by rw [rn_rep ⟨1, 64, by norm_num, by norm_num⟩]
  have e3 : rn (2 ^ 60 : ℝ) = 2 ^ 60 := rn_rep ⟨1, 60, by norm_num, by norm_num⟩
  have e4 : rn √(2 ^ 60 : ℝ) = 2 ^ 30 := by
    rw [show (2 ^ 60 : ℝ) = 2 ^ 30 * 2 ^ 30 by norm_num, Real.sqrt_mul_self (by positivity)]
    exact rn_rep ⟨1, 30, by norm_num, by norm_num⟩
  have e5 : rn (256 * 2 ^ 30 : ℝ) = 2 ^ 38 := by rw [rn_rep ⟨1, 38, by norm_num, by norm_num⟩]; norm_num
  rw [e1] at hF
  rw [e2, e2', e3, e4, e5] at hG
  have hs : |A.sin DE| ≤ 1.1 := by
    have h1 := hA.sin DE
    have h2 := abs_sin_le_one DE
    have h3 := abs_add_le (A.sin DE - Real.sin DE) (Real.sin DE)
    rw [sub_add_cancel] at h3
    have := u_small
    have := u_pos
    nlinarith
  obtain ⟨hc, hc2⟩ := one_sub_cosD hA DE
  rw [hA.arith.rd] at hc hc2
  have hd := stateD_diff hA hF' hG'
  generalize (q.stateD A nearPar).r.x - (q.stateD A nearPar).r.y = D at *
  generalize rn (1 - A.cos DE) = c at *
  generalize A.sin DE = t at *
  have ht : |(2 ^ 38 : ℝ) * t| ≤ 2 ^ 38 * 1.1 := by
    rw [abs_mul, abs_of_pos (by positivity)]; exact mul_le_mul_of_nonneg_left hs (by positivity)
  have ht' := rn_le_two ht
  generalize rn (2 ^ 38 * t) = w at *
  exact nearPar_real u_pos u_small hc hF hG ht' hd

/-- Where the body really is after 1536 units of time. -/
theorem nearPar_trueXY : (kepFlow nearPar 1 1536).r.x - (kepFlow nearPar 1 1536).r.y < 244 ∧
    200 < (kepFlow nearPar 1 1536).r.x - (kepFlow nearPar 1 1536).r.y := by
  obtain ⟨hα, hα'⟩ := nearPar_alpha
  have ht := timeU_anomU one_pos nearPar_h 1536
  have hm := timeU_strictMono one_pos nearPar_h
  have s0 := anomU_nonneg one_pos nearPar_h (t := 1536) (by norm_num)
  unfold kepFlow
  generalize anomU nearPar 1 1536 = s at *
  have hs7 : s < 7 := by
    rw [← hm.lt_iff_lt, ht]
    obtain ⟨a1, -, a3, a4⟩ := U_bounds hα hα' (s := 7) (by norm_num) (by norm_num)
    unfold timeU U1
    rw [nearPar_norm, nearPar_sigma, sqrt_one, div_one]
    have := mul_le_mul hα' a4 a3 (by positivity)
    norm_num at *
    linarith
  obtain ⟨a1, a2, a3, a4⟩ := U_bounds hα hα' s0 (by linarith)
  have ht' := ht
  unfold timeU at ht'
  rw [nearPar_norm, nearPar_sigma, sqrt_one, div_one] at ht'
  have hG : GU nearPar 1 s = 1536 - U3 (alphaOf nearPar 1) s := by
    unfold GU; rw [nearPar_norm, nearPar_sigma, sqrt_one, div_one]; linarith
  have hs5 : 5 ≤ s := by
    by_contra hc
    have hc := (not_le.1 hc).le
    have h2 := pow_le_pow_left₀ s0 hc 2
    have h3 := pow_le_pow_left₀ s0 hc 3
    have : 0 ≤ alphaOf nearPar 1 * U3 (alphaOf nearPar 1) s := mul_nonneg hα.le a3
    unfold U1 at ht'
    norm_num at *
    linarith
  have hx : (stateU nearPar 1 s).r.x - (stateU nearPar 1 s).r.y
      = 256 - U2 (alphaOf nearPar 1) s + (1536 - U3 (alphaOf nearPar 1) s) / 2 ^ 57 := by
    unfold stateU
    simp only [V3.add_x, V3.smul_x, V3.add_y, V3.smul_y]
    rw [hG]
    unfold FU
    rw [nearPar_norm]
    simp only [nearPar]
    ring
  rw [hx]
  have h2 := pow_le_pow_left₀ (by norm_num) hs5 2
  have h3 := pow_le_pow_left₀ s0 hs7.le 2
  have h4 := pow_le_pow_left₀ s0 hs7.le 3
  norm_num at *
  constructor <;> linarith

/-- **C89, negation**: whatever the root finder answers, when `propagate_lagrangian` returns a state for this orbit, the position is more
than 7 away (at a distance of about 350) from where the body is after 1536 units of time. -/
theorem C89_near_parabola {A : Libm} (hA : A.Double) (sv : SolverD) {y : RV ℝ}
    (h : propagateLagrangianD A sv nearPar 1536 1 = .ok (some y)) : 7 < V3.norm (y.r - (kepFlow nearPar 1 1536).r) := by
  rcases nearPar_runE hA sv with h' | h' | ⟨DE, q, hq, h'⟩
  · rw [h'] at h; exact nomatch h
  · rw [h'] at h; exact nomatch h
  rw [h'] at h
  simp only [Res.ok.injEq, Option.some.injEq] at h
  subst h
  obtain ⟨t1, t2⟩ := nearPar_trueXY
  have hxy := nearPar_xy hA hq
  generalize (q.stateD A nearPar).r = r at *
  generalize (kepFlow nearPar 1 1536).r = p at *
  unfold V3.norm
  apply Real.lt_sqrt_of_sq_lt
  have hz := sq_nonneg (r.z - p.z)
  have hs := sq_nonneg (r.x - p.x + (r.y - p.y))
  have hd : 100 < (r.x - r.y - (p.x - p.y)) ^ 2 := by
    rcases hxy with h | h <;> nlinarith
  unfold V3.dot
  simp only [V3.sub_x, V3.sub_y, V3.sub_z]
  nlinarith

/-! ## Concrete cases -/

/-- A root finder that answers, in 10 iterations, the anomaly difference of the straight line. -/
noncomputable def lineSolverD : SolverD := fun _ _ _ _ => (6 / 2 ^ 30, 10)

/-- The coefficients for its answer. -/
theorem nearPar_coeff {A : Libm} (hA : A.Double) :
    ∃ q, coeffED A 1 256 16 (2 ^ 60) (2 ^ 30) (6 / 2 ^ 30) = some q ∧ q.F = 1 := by
  have hb : |(6 / 2 ^ 30 : ℝ)| ≤ 1 / 2 ^ 27 := by rw [abs_of_pos (by positivity)]; norm_num
  have hcos : A.cos (6 / 2 ^ 30) = 1 := by rw [hA.cos_tiny _ hb]; exact cos_rounds (by positivity) (by norm_num)
  have hsin : A.sin (6 / 2 ^ 30) = 6 / 2 ^ 30 := by
    rw [hA.sin_tiny _ hb]; exact sin_rounds (by positivity) ⟨6, -30, by norm_num, by norm_num⟩ (by norm_num)
  have r1 : rn (1 : ℝ) = 1 := rn_rep rep_one
  have r60 : rn (2 ^ 60 : ℝ) = 2 ^ 60 := rn_rep ⟨1, 60, by norm_num, by norm_num⟩
  have a1 : rn (256 - 2 ^ 60 : ℝ) = 256 - 2 ^ 60 := rn_rep ⟨-(2 ^ 52 - 1), 8, by norm_num, by push_cast; norm_num⟩
  have a2 : rn (16 * 2 ^ 30 : ℝ) = 16 * 2 ^ 30 := rn_rep ⟨1, 34, by norm_num, by norm_num⟩
  have a3 : rn (2 ^ 60 + (256 - 2 ^ 60) : ℝ) = 256 := by rw [rn_rep ⟨1, 8, by norm_num, by norm_num⟩]; ring
  have a4 : rn (16 * 2 ^ 30 * (6 / 2 ^ 30) : ℝ) = 96 := by rw [rn_rep ⟨96, 0, by norm_num, by norm_num⟩]; norm_num
  have a5 : rn (256 + 96 : ℝ) = 352 := by rw [rn_rep ⟨352, 0, by norm_num, by norm_num⟩]; norm_num
  have a6 : rn (352 * 256 : ℝ) ≠ 0 := by rw [rn_rep ⟨352, 8, by norm_num, by norm_num⟩]; norm_num
  have hsq : ∀ t : ℝ, 0 ≤ t → A.sqrt? t = some (rn √t) := by
    intro t ht
    unfold Arith.sqrt? sqrt?
    rw [if_neg (not_lt.2 ht), hA.arith.rd]; rfl
  unfold coeffED
  simp only [hcos, hsin, hA.arith.rd, mul_one, a1, a2, a3, a4, a5, sub_self, rn_zero, sqrt_one, r1, mul_zero, sub_zero]
  rw [divD hA (by norm_num : (256 : ℝ) ≠ 0), divD hA one_ne_zero, divD hA one_ne_zero, div_one, one_mul, r60, hsq _ (by positivity),
    divD hA (by norm_num : (352 : ℝ) ≠ 0)]
  simp only [Option.bind_eq_bind, Option.bind_some]
  rw [divD hA a6]
  rw [div_one, r60, hsq _ (by positivity)]
  exact ⟨_, rfl, rfl⟩

/-- A case of `C89_near_parabola`: a state is returned. -/
example : Libm.rounded.Double ∧ ∃ y, propagateLagrangianD Libm.rounded lineSolverD nearPar 1536 1 = .ok (some y) := by
  refine ⟨Libm.rounded_double, ?_⟩
  have hA := Libm.rounded_double
  obtain ⟨hR, ho⟩ := nearPar_orbit hA
  obtain ⟨q, hq, -⟩ := nearPar_coeff hA
  have hs : Libm.rounded.rd √(2 ^ 60 : ℝ) = 2 ^ 30 := by
    rw [show (2 ^ 60 : ℝ) = 2 ^ 30 * 2 ^ 30 by norm_num, Real.sqrt_mul_self (by positivity), hA.arith.rd]
    exact rn_rep ⟨1, 30, by norm_num, by norm_num⟩
  have hp := pow_ne hA 3 (show (0 : ℝ) < 2 ^ 60 by positivity)
  have hn : 0 ≤ rn (1 / Libm.rounded.pow (2 ^ 60) 3) := rn_nonneg (by positivity)
  unfold propagateLagrangianD
  dsimp only
  rw [if_neg (by norm_num), ho, hR]
  dsimp only
  rw [if_pos (show (0 : ℝ) < 2 ^ 60 by positivity)]
  unfold lagrED
  rw [hs]
  dsimp only
  rw [divD hA hp.ne', divD hA (by norm_num : (2 ^ 30 : ℝ) ≠ 0), divD hA (by norm_num : (2 ^ 60 : ℝ) ≠ 0)]
  simp only [Option.bind_eq_bind, Option.bind_some, Arith.sqrt?, sqrt?, if_neg (not_lt.2 hn), Option.map_some, Option.pure_def, lineSolverD,
    tryRoot, hq]
  exact ⟨_, rfl⟩

/-- A case of the granularity and of the error bound: the coefficients of the example. Here `F` should differ from 1 by about 0.07, and
can only differ from 1 by about 1/2. -/
example : ∃ q, coeffED Libm.rounded 1 256 16 (2 ^ 60) (2 ^ 30) (6 / 2 ^ 30) = some q ∧ q.F = 1 ∧
    (2 : ℝ) ^ 60 / 256 / 2 ^ 53 = 1 / 2 ∧ 0.07 < (2 : ℝ) ^ 60 / 256 * (1 - Real.cos (6 / 2 ^ 30)) := by
  obtain ⟨q, hq, h1⟩ := nearPar_coeff Libm.rounded_double
  refine ⟨q, hq, h1, by norm_num, ?_⟩
  have h := (abs_le.1 (cos_bound (x := 6 / 2 ^ 30) (by rw [abs_of_pos (by positivity)]; norm_num))).2
  rw [abs_of_pos (by positivity)] at h
  norm_num at *
  linarith

end Kep3
