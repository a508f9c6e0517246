import Verif.Elements.Double
import Verif.Elements.Props16

/-!
# Keplerian elements in double precision: which of them are numbers
-/

namespace Kep3
open Real V3 Fl

/-! ## The assumptions on BLAS can be met -/

/-- Sums from left to right. -/
noncomputable def Blas.naive (A : Arith) : Blas := ⟨A.dot, fun v => A.rd √(A.dot v v)⟩

theorem Rep.neg' {x : ℝ} (h : Rep x) : Rep (-x) := by
  have := rep_rn (-x)
  rwa [rn_neg, rn_rep h] at this

theorem rn_sqrt_abs {x : ℝ} (h : Rep x) : rn √(rn (x * x)) = |x| := by
  rcases lt_trichotomy x 0 with h0 | h0 | h0
  · have := rn_sqrt_sq (neg_pos.2 h0) (Rep.neg' h)
    rw [neg_mul_neg] at this
    rw [this, abs_of_neg h0]
  · subst h0; simp [rn_zero]
  · rw [rn_sqrt_sq h0 h, abs_of_pos h0]

theorem Blas.naive_ok {A : Arith} (hA : A.Double) : (Blas.naive A).Ok where
  dot v w := by
    refine (dot_err hA v w).trans ?_
    have := mul_nonneg u_pos.le (mul_nonneg (norm_nonneg v) (norm_nonneg w))
    linarith
  norm v := by
    have h := (near_dot hA v).sqrt.rn (by norm_num)
    show Near 5 (V3.norm v) (A.rd √(A.dot v v))
    rw [hA.rd]
    exact h.mono (by norm_num)
  norm_ge v hx hy hz := by
    show |v.x| ≤ A.rd √(A.dot v v) ∧ |v.y| ≤ A.rd √(A.dot v v) ∧ |v.z| ≤ A.rd √(A.dot v v)
    have q : ∀ t : ℝ, 0 ≤ rn (t * t) := fun t => rn_nonneg (mul_self_nonneg t)
    have key : ∀ t : ℝ, Rep t → rn (t * t) ≤ A.dot v v → |t| ≤ A.rd √(A.dot v v) := by
      intro t ht h
      rw [← rn_sqrt_abs ht, hA.rd]
      exact rn_mono (sqrt_le_sqrt h)
    have hd : A.dot v v = rn (rn (rn (v.x * v.x) + rn (v.y * v.y)) + rn (v.z * v.z)) := by unfold Arith.dot; rw [hA.rd]
    have s : rn (rn (v.x * v.x) + rn (v.y * v.y)) ≤ A.dot v v := by
      rw [hd, ← rn_rn (rn (v.x * v.x) + rn (v.y * v.y))]
      apply rn_mono
      rw [rn_rn]
      linarith [q v.z]
    refine ⟨key _ hx (le_trans ?_ s), key _ hy (le_trans ?_ s), key _ hz ?_⟩
    · rw [← rn_rn (v.x * v.x)]
      apply rn_mono
      rw [rn_rn]
      linarith [q v.y]
    · rw [← rn_rn (v.y * v.y)]
      apply rn_mono
      rw [rn_rn]
      linarith [q v.x]
    · rw [hd, ← rn_rn (v.z * v.z)]
      apply rn_mono
      rw [rn_rn]
      have : 0 ≤ rn (rn (v.x * v.x) + rn (v.y * v.y)) := rn_nonneg (by linarith [q v.x, q v.y])
      linarith
  dot_x a b := dot1 hA a b
  norm_x a ha := by
    show A.rd √(A.dot ⟨a, 0, 0⟩ ⟨a, 0, 0⟩) = |a|
    rw [dot1 hA, hA.rd, rn_sqrt_abs ha]

/-! ## Inclination and node -/

theorem rn_one : rn (1 : ℝ) = 1 := by exact_mod_cast rn_int (K := ℝ) (n := 1) (by norm_num)

/-- A component divided by the norm. -/
theorem quot_le {x n : ℝ} (hn : 0 < n) (h : |x| ≤ n) : -1 ≤ rn (x / n) ∧ rn (x / n) ≤ 1 := by
  rw [abs_le] at h
  constructor
  · rw [← neg_neg (rn (x / n)), neg_le_neg_iff, ← rn_neg, ← rn_one]
    apply rn_mono
    rw [← neg_div, div_le_one hn]; linarith
  · rw [← rn_one]
    apply rn_mono
    rw [div_le_one hn]; linarith

theorem rep_two_pi : Rep (2 * rn π) := by
  obtain ⟨m, e, hm, he⟩ := rep_rn π
  exact ⟨m, e + 1, hm, by rw [he, zpow_add_one₀ (by norm_num)]; ring⟩

section Universal
variable {A : Arith} (hA : A.Double)
include hA

theorem acosFlip_mem {c : ℝ} (h : -1 ≤ c ∧ c ≤ 1) (p : Prop) [Decidable p] : ∃ t, A.acosFlip c p = some t ∧ 0 ≤ t ∧ t ≤ 2 * rn π ∧
    t = if p then rn (2 * rn π - A.acos c) else A.acos c := by
  obtain ⟨a0, a1⟩ := hA.acos_mem c h.1 h.2
  have hpi : 0 ≤ rn π := rn_nonneg pi_pos.le
  refine ⟨if p then rn (2 * rn π - A.acos c) else A.acos c, ?_, ?_, ?_, rfl⟩
  · unfold Arith.acosFlip Arith.acos?
    rw [if_pos h, hA.rd, rn_rep rep_two_pi]
    rfl
  · split_ifs
    · exact rn_nonneg (by linarith)
    · exact a0
  · split_ifs
    · conv_rhs => rw [← rn_rep rep_two_pi]
      exact rn_mono (by linarith)
    · linarith

theorem crossA_rep (a b : V3 ℝ) : Rep (A.cross a b).x ∧ Rep (A.cross a b).y ∧ Rep (A.cross a b).z := by
  unfold Arith.cross
  rw [hA.rd]
  exact ⟨rep_rn _, rep_rn _, rep_rn _⟩

theorem norm_pos_of {B : Blas} (hB : B.Ok) {v : V3 ℝ} (hv : v ≠ 0) : 0 < B.norm v := (hB.norm v).pos (norm_pos hv)

theorem nodeA_ne {x : RV ℝ} (hh : (angMomD A x).x ≠ 0 ∨ (angMomD A x).y ≠ 0) : A.cross kHat (angMomD A x) ≠ 0 := by
  intro h
  have hx := congrArg V3.x h
  have hy := congrArg V3.y h
  obtain ⟨r1, r2, -⟩ := crossA_rep hA x.r x.v
  have e1 := rn_rep r1
  have e2 := rn_rep r2
  change rn (angMomD A x).x = (angMomD A x).x at e1
  change rn (angMomD A x).y = (angMomD A x).y at e2
  simp only [Arith.cross, kHat, hA.rd, zero_mul, one_mul, rn_zero, zero_sub, sub_zero, V3.zero_x, V3.zero_y, rn_neg, rn_rn] at hx hy
  rw [e2, neg_eq_zero] at hx
  rw [e1] at hy
  rcases hh with hh | hh
  · exact hh hy
  · exact hh hx

/-- **C85.** Inclination and longitude of the node are numbers in range for every state whose computed angular momentum is not zero,
respectively not along the polar axis. -/
theorem C85_inclination_node {B : Blas} (hB : B.Ok) (x : RV ℝ) (mu : ℝ) :
    (angMomD A x ≠ 0 → ∃ i, (ic2parD A B x mu).i = some i ∧ 0 ≤ i ∧ i ≤ rn π) ∧
    (((angMomD A x).x ≠ 0 ∨ (angMomD A x).y ≠ 0) → ∃ Om, (ic2parD A B x mu).Om = some Om ∧ 0 ≤ Om ∧ Om ≤ 2 * rn π) := by
  constructor
  · intro hh
    have hp := norm_pos_of hA hB hh
    obtain ⟨r1, r2, r3⟩ := crossA_rep hA x.r x.v
    have hq := quot_le hp (hB.norm_ge (angMomD A x) r1 r2 r3).2.2
    obtain ⟨a0, a1⟩ := hA.acos_mem _ hq.1 hq.2
    refine ⟨_, ?_, a0, a1⟩
    unfold ic2parD
    simp only [Option.bind_eq_bind, Arith.div?, div?_ok hp.ne', hA.rd, Option.map_some, Option.bind_some, Arith.acos?, if_pos hq]
  · intro hh
    set n0 := A.cross kHat (angMomD A x) with hn0
    have hne : n0 ≠ 0 := nodeA_ne hA hh
    have hp := norm_pos_of hA hB hne
    obtain ⟨r1, r2, r3⟩ := crossA_rep hA kHat (angMomD A x)
    have hq := quot_le hp (hB.norm_ge n0 r1 r2 r3).1
    have hnode : nodeD A B x = some ⟨rn (n0.x / B.norm n0), rn (n0.y / B.norm n0), rn (n0.z / B.norm n0)⟩ := by
      unfold nodeD Arith.vdiv?
      rw [← hn0, if_neg hp.ne', hA.rd]
    obtain ⟨t, ht, t0, t1, -⟩ := acosFlip_mem hA hq (rn (n0.y / B.norm n0) < 0)
    refine ⟨t, ?_, t0, t1⟩
    unfold ic2parD
    simp only [Option.bind_eq_bind, hnode, Option.bind_some]
    rw [← ht]

end Universal

/-! ## Anomaly -/

/-- A rounded quotient. -/
theorem quot_err {d d' y y' k s : ℝ} (hy : 0 < y) (hn : Near 5 y y') (k0 : 0 ≤ k) (hk : k ≤ 12) (hd : |d' - d| ≤ k * u * (s * y)) (hs : |d| ≤ s * y) :
    |rn (d' / y') - d / y| ≤ (k + 6.1) * u * s := by
  have hu := u_pos
  have hus := u_small
  have hy' := hn.pos hy
  have hi := (hn.inv hy (by norm_num)).abs_le
  have s0 : 0 ≤ s := by
    by_contra h
    have : s * y < 0 := mul_neg_of_neg_of_pos (not_le.1 h) hy
    linarith [abs_nonneg d]
  have i2 : 1 / y' ≤ 1.0001 * (1 / y) := by
    have := (abs_le.1 hi).2
    have : (5 + 0.01) * u * (1 / y) ≤ 0.0001 * (1 / y) := mul_le_mul_of_nonneg_right (by linarith) (by positivity)
    linarith
  have us : 0 ≤ u * s := by positivity
  have e : d' / y' - d / y = (d' - d) * (1 / y') + d * (1 / y' - 1 / y) := by ring
  have a1 : |(d' - d) * (1 / y')| ≤ (k * u * (s * y)) * (1.0001 * (1 / y)) := by
    rw [abs_mul, abs_of_pos (by positivity : 0 < 1 / y')]
    exact mul_le_mul hd i2 (by positivity) (by positivity)
  have a2 : |d * (1 / y' - 1 / y)| ≤ (s * y) * ((5 + 0.01) * u * (1 / y)) := by
    rw [abs_mul]; exact mul_le_mul hs hi (abs_nonneg _) (by positivity)
  rw [show (k * u * (s * y)) * (1.0001 * (1 / y)) = 1.0001 * (k * (u * s)) by field_simp] at a1
  rw [show (s * y) * ((5 + 0.01) * u * (1 / y)) = 5.01 * (u * s) by field_simp; norm_num] at a2
  have h1 : |d' / y' - d / y| ≤ 1.0001 * (k * (u * s)) + 5.01 * (u * s) := by
    rw [e]; exact (abs_add_le _ _).trans (by linarith)
  have kus : k * (u * s) ≤ 12 * (u * s) := mul_le_mul_of_nonneg_right hk us
  have uss : u * s ≤ 0.0001 * s := mul_le_mul_of_nonneg_right (by linarith) s0
  have h2 : |d / y| ≤ s := by rw [abs_div, abs_of_pos hy, div_le_iff₀ hy]; exact hs
  have h3 : |d' / y'| ≤ 1.01 * s := by
    have := abs_add_le (d' / y' - d / y) (d / y)
    rw [sub_add_cancel] at this
    linarith
  have h4 := (rn_err' (d' / y')).trans (mul_le_mul_of_nonneg_left h3 hu.le)
  have := abs_add_le (rn (d' / y') - d' / y') (d' / y' - d / y)
  rw [sub_add_sub_cancel] at this
  have : 0 ≤ k * (u * s) := by positivity
  linarith

theorem cosD_mem {a b : V3 ℝ} (ha : a ≠ 0) (hb : b ≠ 0) : -1 ≤ dot a b / (norm a * norm b) ∧ dot a b / (norm a * norm b) ≤ 1 := by
  have hN : 0 < norm a * norm b := mul_pos (norm_pos ha) (norm_pos hb)
  have := abs_le.1 (abs_dot_le a b)
  constructor
  · rw [le_div_iff₀ hN]; linarith
  · rw [div_le_iff₀ hN]; linarith

theorem holder4 {x y : ℝ} (hx : -1 ≤ x ∧ x ≤ 1) (hy : -1 ≤ y ∧ y ≤ 1) (h : |x - y| ≤ 22 * u) :
    |arccos x - arccos y| ≤ 11 / 10 ^ 8 := by
  refine (arccos_holder hx hy).trans ?_
  have : √(|x - y| / 2) ≤ 3.4949 / 10 ^ 8 := by
    rw [Real.sqrt_le_left (by norm_num)]
    unfold u at h
    calc |x - y| / 2 ≤ 22 * (1 / 2 ^ 53) / 2 := by linarith
      _ ≤ _ := by norm_num
  have hpi := pi_lt_d4
  nlinarith [sqrt_nonneg (|x - y| / 2), pi_pos]

/-- The angle from a cosine with an error of at most 22 units. -/
theorem flip_err {A : Arith} (hA : A.Double) {c m : ℝ} (hm : -1 ≤ m ∧ m ≤ 1) (h : |c - m| ≤ 22 * u) (p : Prop) [Decidable p] :
    (∃ t, A.acosFlip c p = some t ∧ 0 ≤ t ∧ t ≤ 2 * rn π ∧ (¬p → |t - arccos m| ≤ 2 / 10 ^ 7) ∧ (p → |2 * π - t - arccos m| ≤ 2 / 10 ^ 7)) ∨
    (A.acosFlip c p = none ∧ (arccos m ≤ 11 / 10 ^ 8 ∨ π - 11 / 10 ^ 8 ≤ arccos m)) := by
  by_cases hd : -1 ≤ c ∧ c ≤ 1
  · left
    obtain ⟨t, ht, t0, t1, te⟩ := acosFlip_mem hA hd p
    have a1 := hA.acos c hd.1 hd.2
    have a2 := holder4 hd hm h
    refine ⟨t, ht, t0, t1, ?_, ?_⟩
    · intro hs
      rw [if_neg hs] at te
      rw [te]
      have := abs_sub_le (A.acos c) (arccos c) (arccos m)
      norm_num at *; linarith
    · intro hs
      rw [if_pos hs] at te
      obtain ⟨m0, m1⟩ := hA.acos_mem c hd.1 hd.2
      have p1 := rn_err' π
      rw [abs_of_pos pi_pos] at p1
      have hpi := pi_lt_d4
      have p2 : u * π ≤ 4 / 10 ^ 15 := by nlinarith [u_small, pi_pos]
      have p3 := abs_le.1 (p1.trans p2)
      have q1 := rn_err' (2 * rn π - A.acos c)
      have q2 : |2 * rn π - A.acos c| ≤ 7 := by
        rw [abs_le]; norm_num at *; constructor <;> linarith [pi_pos]
      have q3 : u * |2 * rn π - A.acos c| ≤ 7 / 10 ^ 15 := by nlinarith [u_small, abs_nonneg (2 * rn π - A.acos c)]
      have q4 := abs_le.1 (q1.trans q3)
      rw [← te] at q4
      rw [abs_le] at a1 a2 ⊢
      norm_num at *
      constructor <;> linarith
  · right
    refine ⟨by unfold Arith.acosFlip Arith.acos?; rw [if_neg hd]; rfl, ?_⟩
    rcases le_or_gt c 1 with h4 | h4
    · right
      have h5 : c < -1 := by by_contra h; exact hd ⟨le_of_not_gt h, h4⟩
      have := holder4 (x := -1) ⟨le_rfl, by norm_num⟩ hm (by
        rw [abs_le] at h ⊢; constructor <;> [linarith; linarith [hm.1]])
      rw [arccos_neg_one] at this
      have := (abs_le.1 this).2
      linarith
    · left
      have := holder4 (x := 1) ⟨by norm_num, le_rfl⟩ hm (by
        rw [abs_le] at h ⊢; constructor <;> [linarith [hm.2]; linarith])
      rw [arccos_one] at this
      have := (abs_le.1 this).1
      linarith

/-- The true anomaly as computed, for a computed eccentricity vector that is not zero: within 2e-7 rad of the angle between that vector and the
position, on the side given by the computed product of position and velocity; a NaN only if that angle is within 1.1e-7 rad of 0 or pi. -/
theorem C85_anomaly_partial {A : Arith} (hA : A.Double) {B : Blas} (hB : B.Ok) {x : RV ℝ} {mu : ℝ} {ev : V3 ℝ} (hr : x.r ≠ 0) (hev : eccVecD A B x mu = some ev)
    (he : ev ≠ 0) :
    (∃ f, (ic2parD A B x mu).f = some f ∧ 0 ≤ f ∧ f ≤ 2 * rn π ∧
      (0 ≤ B.dot x.r x.v → |f - angleV ev x.r| ≤ 2 / 10 ^ 7) ∧ (B.dot x.r x.v < 0 → |2 * π - f - angleV ev x.r| ≤ 2 / 10 ^ 7)) ∨
    ((ic2parD A B x mu).f = none ∧ (angleV ev x.r ≤ 11 / 10 ^ 8 ∨ π - 11 / 10 ^ 8 ≤ angleV ev x.r)) := by
  have hu := u_pos
  have en := norm_pos he
  have rn0 := norm_pos hr
  have e' := (hB.norm ev).pos en
  have r' := (hB.norm x.r).pos rn0
  have h1 := quot_err (k := 4) (s := norm x.r) en (hB.norm ev) (by norm_num) (by norm_num)
    (by have := hB.dot ev x.r; rwa [mul_comm (norm ev)] at this) (by have := abs_dot_le ev x.r; rwa [mul_comm (norm ev)] at this)
  have h2 := quot_err (k := 10.1) (s := 1) (d := dot ev x.r / norm ev) rn0 (hB.norm x.r) (by norm_num) (by norm_num) (by rw [one_mul]; exact h1.trans (le_of_eq (by norm_num)))
    (by rw [one_mul, abs_div, abs_of_pos en, div_le_iff₀ en, mul_comm]; exact abs_dot_le ev x.r)
  rw [div_div] at h2
  set c := rn (rn (B.dot ev x.r / B.norm ev) / B.norm x.r) with hc
  have h3 : |c - dot ev x.r / (norm ev * norm x.r)| ≤ 17 * u := h2.trans (by linarith)
  have hm := cosD_mem he hr
  have hrun : ∀ o, A.acosFlip c (B.dot x.r x.v < 0) = o → (ic2parD A B x mu).f = o := by
    intro o ho
    rw [← ho]
    unfold ic2parD
    simp only [Option.bind_eq_bind, hev, Option.bind_some, Arith.div?, div?_ok e'.ne', div?_ok r'.ne', hA.rd, Option.map_some]
    congr
  rcases flip_err hA hm (h3.trans (by linarith)) (B.dot x.r x.v < 0) with ⟨t, t0, t1, t2, t3, t4⟩ | ⟨h4, h5⟩
  · exact Or.inl ⟨t, hrun _ t0, t1, t2, fun h => t3 (not_lt.2 h), t4⟩
  · exact Or.inr ⟨hrun _ h4, h5⟩

/-! ## Perigee on the node line -/

/-- A state at the perigee of an Earth orbit: altitude 205 km, inclination 45°, eccentricity 0.19. -/
noncomputable def perigee : RV ℝ := ⟨⟨6583000, 0, 0⟩, ⟨0, 6000, 6000⟩⟩
/-- The constant `MU_EARTH`, include/kep3/core_astro/constants.hpp:30. -/
noncomputable def muEarth : ℝ := 398600435507000

theorem pW : rn (473976000000000 / muEarth) = 5355232826746552 / 2 ^ 52 := by
  have := rn_eval (x := 473976000000000 / muEarth) 5355232826746552 (-52) (by unfold muEarth; norm_num) (by unfold muEarth; norm_num)
    (by unfold muEarth; norm_num [abs_lt])
  rw [this]; norm_num

theorem pE : rn (5355232826746552 / 2 ^ 52 - 1 : ℝ) = 6813065595008448 / 2 ^ 55 := by
  have : Rep (6813065595008448 / 2 ^ 55 : ℝ) := ⟨6813065595008448, -55, by norm_num, by norm_num⟩
  rw [show (5355232826746552 / 2 ^ 52 - 1 : ℝ) = 6813065595008448 / 2 ^ 55 by norm_num, rn_rep this]

theorem pD : rn (6813065595008448 / 2 ^ 55 * 6583000 : ℝ) = 5346585608952119 / 2 ^ 32 := by
  have := rn_eval (x := (6813065595008448 / 2 ^ 55 * 6583000 : ℝ)) 5346585608952119 (-32) (by norm_num) (by norm_num) (by norm_num [abs_lt])
  rw [this]; norm_num

theorem pQ : rn (5346585608952119 / 2 ^ 32 / (6813065595008448 / 2 ^ 55) : ℝ) = 7068442427392001 / 2 ^ 30 := by
  have := rn_eval (x := (5346585608952119 / 2 ^ 32 / (6813065595008448 / 2 ^ 55) : ℝ)) 7068442427392001 (-30) (by norm_num) (by norm_num) (by norm_num [abs_lt])
  rw [this]; norm_num

theorem pq : rn (7068442427392001 / 2 ^ 30 / 6583000 : ℝ) = 1 + 1 / 2 ^ 52 := by
  have := rn_eval (x := (7068442427392001 / 2 ^ 30 / 6583000 : ℝ)) 4503599627370497 (-52) (by norm_num) (by norm_num) (by norm_num [abs_lt])
  rw [this]; norm_num

theorem rn_nat {n : ℕ} (h : n ≤ 2 ^ 53) : rn (n : ℝ) = n := by
  have := rn_int (K := ℝ) (n := (n : Int)) (by rw [abs_of_nonneg (by positivity)]; exact_mod_cast h)
  exact_mod_cast this

section Perigee
variable {A : Arith} (hA : A.Double)
include hA

theorem perigee_h : angMomD A perigee = ⟨0, -39498000000, 39498000000⟩ := by
  have h : rn (39498000000 : ℝ) = 39498000000 := by exact_mod_cast rn_nat (n := 39498000000) (by norm_num)
  unfold angMomD perigee Arith.cross
  rw [hA.rd]
  simp only [mul_zero, zero_mul, rn_zero, sub_zero, zero_sub, rn_neg]
  norm_num [h]

theorem perigee_ecc {B : Blas} (hB : B.Ok) : eccVecD A B perigee muEarth = some ⟨6813065595008448 / 2 ^ 55, 0, 0⟩ := by
  have h1 : rn (236988000000000 : ℝ) = 236988000000000 := by exact_mod_cast rn_nat (n := 236988000000000) (by norm_num)
  have h2 : rn (473976000000000 : ℝ) = 473976000000000 := by exact_mod_cast rn_nat (n := 473976000000000) (by norm_num)
  have hR : B.norm perigee.r = 6583000 := by
    have := hB.norm_x 6583000 ⟨6583000, 0, by norm_num, by norm_num⟩
    rw [abs_of_pos (by norm_num)] at this
    exact this
  have hc : A.cross perigee.v (angMomD A perigee) = ⟨473976000000000, 0, 0⟩ := by
    rw [perigee_h hA]
    unfold perigee Arith.cross
    rw [hA.rd]
    simp only [mul_zero, zero_mul, rn_zero, sub_zero, zero_sub, mul_neg, rn_neg, sub_neg_eq_add]
    norm_num [h1, h2]
  unfold eccVecD
  rw [hc, hR]
  unfold Arith.vdiv? Arith.sub perigee
  rw [if_neg (by unfold muEarth; norm_num), if_neg (by norm_num), hA.rd]
  simp only [Option.bind_eq_bind, Option.bind_some, zero_div, rn_zero, sub_zero, pW, div_self (by norm_num : (6583000 : ℝ) ≠ 0), rn_one, pE]
  rfl

/-- **C85.** The true anomaly of a state at perigee can be a NaN: the cosine is rounded above 1. -/
theorem C85_perigee_nan {B : Blas} (hB : B.Ok) : (ic2parD A B perigee muEarth).f = none ∧ ∃ q, ic2par perigee muEarth = some q ∧ q.f = 0 := by
  constructor
  · have hr : Rep (6813065595008448 / 2 ^ 55 : ℝ) := ⟨6813065595008448, -55, by norm_num, by norm_num⟩
    have he : B.norm ⟨6813065595008448 / 2 ^ 55, 0, 0⟩ = 6813065595008448 / 2 ^ 55 := by
      rw [hB.norm_x _ hr, abs_of_pos (by norm_num)]
    have hR : B.norm perigee.r = 6583000 := by
      have := hB.norm_x 6583000 ⟨6583000, 0, by norm_num, by norm_num⟩
      rw [abs_of_pos (by norm_num)] at this
      exact this
    have hD : B.dot ⟨6813065595008448 / 2 ^ 55, 0, 0⟩ perigee.r = 5346585608952119 / 2 ^ 32 := by
      have := hB.dot_x (6813065595008448 / 2 ^ 55) 6583000
      rw [pD] at this
      exact this
    unfold ic2parD
    simp only [Option.bind_eq_bind, perigee_ecc hA hB, Option.bind_some, hD, he, hR, Arith.div?, hA.rd]
    rw [div?_ok (by norm_num), Option.map_some, Option.bind_some, pQ, div?_ok (by norm_num), Option.map_some, Option.bind_some, pq]
    unfold Arith.acosFlip Arith.acos?
    rw [if_neg (by norm_num)]
    rfl
  · have hh : angMom perigee = ⟨0, -39498000000, 39498000000⟩ := by
      unfold angMom perigee; ext <;> norm_num
    have hR : norm perigee.r = 6583000 := by
      unfold perigee V3.norm V3.dot
      rw [show (6583000 * 6583000 + 0 * 0 + 0 * 0 : ℝ) = 6583000 ^ 2 by norm_num]
      exact sqrt_sq (by norm_num)
    set E : ℝ := 473976000000000 / muEarth - 1 with hE
    have E0 : 0 < E := by rw [hE]; unfold muEarth; norm_num
    have he : eccVec perigee muEarth = ⟨E, 0, 0⟩ := by
      unfold eccVec
      rw [show cross perigee.r perigee.v = _ from hh, hR, hE]
      unfold perigee muEarth
      ext <;> norm_num
    have hne : norm (⟨E, 0, 0⟩ : V3 ℝ) = E := by
      unfold V3.norm V3.dot
      rw [show (E * E + 0 * 0 + 0 * 0 : ℝ) = E ^ 2 by ring]
      exact sqrt_sq E0.le
    obtain ⟨q, hq, qe, -, -, -, qc, -, -, -, -, -, -, -, f0, f1⟩ := ic2par_spec perigee (mu := muEarth) (by unfold muEarth; norm_num) (by rw [hh]; norm_num)
      (by rw [he]; intro h; have := congrArg V3.x h; simp at this; linarith)
      (by unfold energy; rw [hR]; unfold perigee muEarth V3.dot; norm_num)
    refine ⟨q, hq, ?_⟩
    rw [qe, he, hne, hR] at qc
    have hc1 : cos q.f = 1 := by
      rw [qc]; unfold perigee V3.dot; simp; field_simp
    exact (cos_eq_one_iff_of_lt_of_lt (by linarith [pi_pos]) f1).1 hc1

end Perigee

/-! ## Eccentricity -/

theorem crossD_comp {a b a' b' s k : ℝ} (hs : 0 ≤ s) (ha : |a| + |b| ≤ s) (hda : |a' - a| + |b' - b| ≤ k * u * s) (k0 : 0 ≤ k) (hk : k ≤ 10) :
    |rn (rn a' - rn b') - (a - b)| ≤ (k + 2.1) * u * s := by
  have hu := u_pos
  have hus := u_small
  have us : 0 ≤ u * s := by positivity
  have uss : u * s ≤ 0.0001 * s := mul_le_mul_of_nonneg_right (by linarith) hs
  have kus : k * (u * s) ≤ 10 * (u * s) := mul_le_mul_of_nonneg_right hk us
  have sa : |a'| ≤ |a' - a| + |a| := by have := abs_add_le (a' - a) a; rwa [sub_add_cancel] at this
  have sb : |b'| ≤ |b' - b| + |b| := by have := abs_add_le (b' - b) b; rwa [sub_add_cancel] at this
  have hsum : |a'| + |b'| ≤ 1.01 * s := by linarith
  have e1 := rn_err' a'
  have e2 := rn_err' b'
  have e12 : |rn a' - a'| + |rn b' - b'| ≤ u * (1.01 * s) := by
    have := mul_le_mul_of_nonneg_left hsum hu.le
    linarith
  have e3 := rn_err' (rn a' - rn b')
  generalize rn (rn a' - rn b') = z at *
  generalize rn a' = p at *
  generalize rn b' = q at *
  have h1 : |p - q| ≤ 1.03 * s := by
    have : |p - q| ≤ |p - a'| + |q - b'| + (|a'| + |b'|) := by
      calc |p - q| = |(p - a') + -(q - b') + (a' - b')| := by ring_nf
        _ ≤ |p - a'| + |-(q - b')| + |a' - b'| := abs_add_three _ _ _
        _ ≤ _ := by rw [abs_neg]; linarith [abs_sub a' b']
    linarith
  have h2 := e3.trans (mul_le_mul_of_nonneg_left h1 hu.le)
  have h3 : |z - (a - b)| ≤ |z - (p - q)| + (|p - a'| + |q - b'|) + (|a' - a| + |b' - b|) := by
    calc |z - (a - b)| = |(z - (p - q)) + ((p - a') + -(q - b')) + ((a' - a) + -(b' - b))| := by ring_nf
      _ ≤ |z - (p - q)| + |(p - a') + -(q - b')| + |(a' - a) + -(b' - b)| := abs_add_three _ _ _
      _ ≤ _ := by
        have := abs_add_le (p - a') (-(q - b'))
        have := abs_add_le (a' - a) (-(b' - b))
        rw [abs_neg] at *
        linarith
  linarith

theorem abs_x_le (v : V3 ℝ) : |v.x| ≤ norm v ∧ |v.y| ≤ norm v ∧ |v.z| ≤ norm v := by
  have h := norm_sq v
  have h0 := norm_nonneg v
  unfold V3.dot at h
  refine ⟨?_, ?_, ?_⟩ <;> apply abs_le_of_sq_le_sq _ h0 <;> nlinarith [mul_self_nonneg v.x, mul_self_nonneg v.y, mul_self_nonneg v.z]

theorem norm_le_of_comp {v : V3 ℝ} {m : ℝ} (hm : 0 ≤ m) (hx : |v.x| ≤ m) (hy : |v.y| ≤ m) (hz : |v.z| ≤ m) : norm v ≤ 1.74 * m := by
  unfold V3.norm V3.dot
  rw [Real.sqrt_le_left (by positivity)]
  have sq : ∀ t : ℝ, |t| ≤ m → t * t ≤ m * m := fun t ht => by
    rw [← abs_mul_abs_self t]; exact mul_le_mul ht ht (abs_nonneg _) hm
  nlinarith [sq _ hx, sq _ hy, sq _ hz, mul_nonneg hm hm]

theorem twoD_prod {a b c d : ℝ} {p q : ℝ} (hp : 0 ≤ p) (ha : |a| ≤ p) (hb : |b| ≤ q) (hc : |c| ≤ p) (hd : |d| ≤ q) :
    |a * b| + |c * d| ≤ 2 * (p * q) := by
  have h1 : |a * b| ≤ p * q := by rw [abs_mul]; exact mul_le_mul ha hb (abs_nonneg _) hp
  have h2 : |c * d| ≤ p * q := by rw [abs_mul]; exact mul_le_mul hc hd (abs_nonneg _) hp
  linarith

theorem subD_prod {a b b' c d d' p q : ℝ} (hp : 0 ≤ p) (ha : |a| ≤ p) (hb : |b' - b| ≤ q) (hc : |c| ≤ p) (hd : |d' - d| ≤ q) :
    |a * b' - a * b| + |c * d' - c * d| ≤ 2 * (p * q) := by
  rw [← mul_sub, ← mul_sub]; exact twoD_prod hp ha hb hc hd

theorem norm_cross_le (a b : V3 ℝ) : norm (cross a b) ≤ norm a * norm b := by
  have h := lagrange a b
  rw [← norm_sq, ← norm_sq, ← norm_sq] at h
  have := mul_nonneg (norm_nonneg a) (norm_nonneg b)
  refine abs_le_of_sq_le_sq' ?_ this |>.2
  nlinarith [sq_nonneg (dot a b)]
theorem norm_smul_pos' {c : ℝ} (hc : 0 < c) (v : V3 ℝ) : norm (c • v) = c * norm v := by
  unfold V3.norm V3.dot
  rw [show (c • v).x * (c • v).x + (c • v).y * (c • v).y + (c • v).z * (c • v).z = c ^ 2 * (v.x * v.x + v.y * v.y + v.z * v.z) by simp; ring,
    Real.sqrt_mul (sq_nonneg c), sqrt_sq hc.le]

theorem norm_sub_le' (a b : V3 ℝ) : norm (a - b) ≤ norm a + norm b := by
  have h := lagrange a b
  have ha := norm_nonneg a
  have hb := norm_nonneg b
  refine abs_le_of_sq_le_sq' ?_ (add_nonneg ha hb) |>.2
  have hd : -(norm a * norm b) ≤ dot a b := by
    refine (abs_le_of_sq_le_sq' ?_ (mul_nonneg ha hb)).1
    rw [mul_pow, norm_sq, norm_sq]
    nlinarith [dot_self_nonneg (cross a b)]
  rw [norm_sq, add_sq, norm_sq, norm_sq]
  have e : dot (a - b) (a - b) = dot a a - 2 * dot a b + dot b b := by unfold V3.dot; simp; ring
  rw [e]; linarith

section Ecc
variable {A : Arith} (hA : A.Double)
include hA

/-- The computed node vector is a unit vector but for rounding, and in the direction of `k × h`. -/
theorem node_unit {B : Blas} (hB : B.Ok) {x : RV ℝ} (hn : A.cross kHat (angMomD A x) ≠ 0) :
    ∃ n, nodeD A B x = some n ∧ |norm n - 1| ≤ 10.7 * u := by
  set n0 := A.cross kHat (angMomD A x) with h0
  have N := norm_pos hn
  have hp := norm_pos_of hA hB hn
  have q : ∀ t : ℝ, |t| ≤ norm n0 → |rn (t / B.norm n0) - t / norm n0| ≤ 6.1 * u := by
    intro t ht
    have := quot_err (k := 0) (s := 1) (d := t) (d' := t) N (hB.norm n0) le_rfl (by norm_num) (by simp) (by rw [one_mul]; exact ht)
    exact this.trans (le_of_eq (by ring))
  obtain ⟨a1, a2, a3⟩ := abs_x_le n0
  have hu := u_pos
  refine ⟨⟨rn (n0.x / B.norm n0), rn (n0.y / B.norm n0), rn (n0.z / B.norm n0)⟩, ?_, ?_⟩
  · unfold nodeD Arith.vdiv?
    rw [← h0, if_neg hp.ne', hA.rd]
  · set n : V3 ℝ := ⟨rn (n0.x / B.norm n0), rn (n0.y / B.norm n0), rn (n0.z / B.norm n0)⟩ with hnn
    set w : V3 ℝ := (1 / norm n0) • n0 with hw
    have w1 : norm w = 1 := by rw [hw, norm_smul_pos' (one_div_pos.2 N), one_div_mul_cancel N.ne']
    have hd : norm (n - w) ≤ 1.74 * (6.1 * u) := by
      apply norm_le_of_comp (by positivity)
      · have := q _ a1; rw [hw, hnn]; simpa [inv_mul_eq_div] using this
      · have := q _ a2; rw [hw, hnn]; simpa [inv_mul_eq_div] using this
      · have := q _ a3; rw [hw, hnn]; simpa [inv_mul_eq_div] using this
    have t1 := norm_sub_le' (n - w) (-w)
    have t2 := norm_sub_le' n (n - w)
    have n1 : norm (-w) = norm w := by unfold V3.norm V3.dot; simp
    have s1 : n - w - -w = n := by ext <;> simp
    have s2 : n - (n - w) = w := by ext <;> simp
    rw [s1, n1, w1] at t1
    rw [s2, w1] at t2
    rw [abs_le]
    constructor <;> linarith

/-- The argument of periapsis as computed, for a computed eccentricity vector that is not zero and a computed angular momentum off the polar axis:
within 2e-7 rad of the angle between the computed node line and that vector, on the side given by its third component; a NaN only if that
angle is within 1.1e-7 rad of 0 or pi. -/
theorem C85_periapsis_partial {B : Blas} (hB : B.Ok) {x : RV ℝ} {mu : ℝ} {n ev : V3 ℝ} (hh : (angMomD A x).x ≠ 0 ∨ (angMomD A x).y ≠ 0)
    (hn : nodeD A B x = some n) (hev : eccVecD A B x mu = some ev) (he : ev ≠ 0) :
    (∃ om, (ic2parD A B x mu).om = some om ∧ 0 ≤ om ∧ om ≤ 2 * rn π ∧
      (0 ≤ ev.z → |om - angleV n ev| ≤ 2 / 10 ^ 7) ∧ (ev.z < 0 → |2 * π - om - angleV n ev| ≤ 2 / 10 ^ 7)) ∨
    ((ic2parD A B x mu).om = none ∧ (angleV n ev ≤ 11 / 10 ^ 8 ∨ π - 11 / 10 ^ 8 ≤ angleV n ev)) := by
  have hu := u_pos
  have hus := u_small
  obtain ⟨n', hn', h1⟩ := node_unit hA hB (nodeA_ne hA hh)
  rw [hn] at hn'
  obtain rfl := Option.some.inj hn'
  have N : 0 < norm n := by have := (abs_le.1 h1).1; linarith
  have n0 : n ≠ 0 := by rintro rfl; rw [V3.norm_eq_zero.2 rfl] at N; exact lt_irrefl _ N
  have en := norm_pos he
  have e' := (hB.norm ev).pos en
  have h2 := quot_err (k := 4) (s := norm n) en (hB.norm ev) (by norm_num) (by norm_num) (hB.dot n ev) (abs_dot_le n ev)
  have hm := cosD_mem n0 he
  set c := rn (B.dot n ev / B.norm ev) with hc
  have h3 : |dot n ev / norm ev - dot n ev / (norm n * norm ev)| ≤ 10.7 * u := by
    have e : dot n ev / norm ev - dot n ev / (norm n * norm ev) = dot n ev / (norm n * norm ev) * (norm n - 1) := by field_simp
    rw [e, abs_mul]
    have := mul_le_mul (abs_le.2 hm) h1 (abs_nonneg _) zero_le_one
    linarith
  have h4 : |c - dot n ev / (norm n * norm ev)| ≤ 22 * u := by
    have t := abs_sub_le c (dot n ev / norm ev) (dot n ev / (norm n * norm ev))
    have hN : norm n ≤ 1.01 := by have := (abs_le.1 h1).2; linarith
    have := h2.trans (mul_le_mul_of_nonneg_left hN (by positivity))
    linarith
  have hrun : (ic2parD A B x mu).om = A.acosFlip c (ev.z < 0) := by
    unfold ic2parD
    simp only [Option.bind_eq_bind, hev, hn, Option.bind_some, Arith.div?, div?_ok e'.ne', hA.rd, Option.map_some]
    congr
  rw [hrun]
  rcases flip_err hA hm h4 (ev.z < 0) with ⟨t, t0, t1, t2, t3, t4⟩ | h
  · exact Or.inl ⟨t, t0, t1, t2, fun h => t3 (not_lt.2 h), t4⟩
  · exact Or.inr h

/-- Rounded cross product. -/
theorem crossD_err (a b b' : V3 ℝ) {k q : ℝ} (k0 : 0 ≤ k) (hk : k ≤ 10) (hb : norm b ≤ q) (hx : |b'.x - b.x| ≤ k * u * q)
    (hy : |b'.y - b.y| ≤ k * u * q) (hz : |b'.z - b.z| ≤ k * u * q) :
    |(A.cross a b').x - (cross a b).x| ≤ (k + 2.1) * u * (2 * (norm a * q)) ∧
    |(A.cross a b').y - (cross a b).y| ≤ (k + 2.1) * u * (2 * (norm a * q)) ∧
    |(A.cross a b').z - (cross a b).z| ≤ (k + 2.1) * u * (2 * (norm a * q)) := by
  have q0 : 0 ≤ q := (norm_nonneg b).trans hb
  have n0 := norm_nonneg a
  have s0 : 0 ≤ 2 * (norm a * q) := by positivity
  obtain ⟨ax, ay, az⟩ := abs_x_le a
  obtain ⟨bx, by', bz⟩ := abs_x_le b
  have e : 2 * (norm a * (k * u * q)) = k * u * (2 * (norm a * q)) := by ring
  unfold Arith.cross
  rw [hA.rd]
  refine ⟨?_, ?_, ?_⟩
  · exact crossD_comp s0 (twoD_prod n0 ay (bz.trans hb) az (by'.trans hb)) (e ▸ subD_prod n0 ay hz az hy) k0 hk
  · exact crossD_comp s0 (twoD_prod n0 az (bx.trans hb) ax (bz.trans hb)) (e ▸ subD_prod n0 az hx ax hz) k0 hk
  · exact crossD_comp s0 (twoD_prod n0 ax (by'.trans hb) ay (bx.trans hb)) (e ▸ subD_prod n0 ax hy ay hx) k0 hk

omit hA in
/-- One component of the eccentricity vector: the quotient by `mu`, the quotient by the distance and the difference. -/
theorem eccD_comp {y y' mu s r n R : ℝ} (hmu : 0 < mu) (hs : 0 ≤ s) (hy : |y| ≤ s) (hd : |y' - y| ≤ 12.6 * u * s) (hR : 0 < R) (hr : |r| ≤ R)
    (hn : Near 5 R n) : |rn (rn (y' / mu) - rn (r / n)) - (y / mu - r / R)| ≤ 14.9 * u * (s / mu + 1) := by
  have hu := u_pos
  have hus := u_small
  set w := s / mu with hw
  have w0 : 0 ≤ w := by positivity
  have uw : 0 ≤ u * w := by positivity
  have uuw : u * (u * w) ≤ 0.0001 * (u * w) := mul_le_mul_of_nonneg_right (by linarith) uw
  have uu : u * u ≤ 0.0001 * u := mul_le_mul_of_nonneg_right (by linarith) hu.le
  have h1 : |y' / mu - y / mu| ≤ 12.6 * u * w := by
    rw [← sub_div, abs_div, abs_of_pos hmu, hw, ← mul_div_assoc]
    exact div_le_div_of_nonneg_right hd hmu.le
  have h2 : |y / mu| ≤ w := by
    rw [abs_div, abs_of_pos hmu]; exact div_le_div_of_nonneg_right hy hmu.le
  have np := hn.pos hR
  have h3 : |r / n - r / R| ≤ 5.01 * u := by
    have hi := hn.2.2.2
    have hlow : n ≥ R * (1 - 5 * u) := by
      have := (abs_le.1 hi).1
      nlinarith
    have e : r / n - r / R = (r / R) * ((R - n) / n) := by field_simp
    rw [e, abs_mul, abs_div r, abs_of_pos hR, abs_div, abs_of_pos np, abs_sub_comm]
    have a1 : |r| / R ≤ 1 := by rw [div_le_one hR]; exact hr
    have a2 : |n - R| / n ≤ 5.01 * u := by
      rw [div_le_iff₀ np]
      refine hi.trans ?_
      have : 5 * u * R ≤ 5.01 * u * (R * (1 - 5 * u)) := by
        have : 5 ≤ 5.01 * (1 - 5 * u) := by linarith
        have := mul_le_mul_of_nonneg_right this (mul_nonneg hu.le hR.le)
        linarith
      refine this.trans ?_
      exact mul_le_mul_of_nonneg_left hlow (by positivity)
    have := mul_le_mul a1 a2 (by positivity) (by norm_num)
    linarith
  have h4 : |r / R| ≤ 1 := by rw [abs_div, abs_of_pos hR, div_le_one hR]; exact hr
  have t1 : |y' / mu| ≤ |y' / mu - y / mu| + |y / mu| := by
    have := abs_add_le (y' / mu - y / mu) (y / mu); rwa [sub_add_cancel] at this
  have t2 : |r / n| ≤ |r / n - r / R| + |r / R| := by
    have := abs_add_le (r / n - r / R) (r / R); rwa [sub_add_cancel] at this
  have e1 := rn_err' (y' / mu)
  have e2 := rn_err' (r / n)
  have e3 := rn_err' (rn (y' / mu) - rn (r / n))
  generalize rn (rn (y' / mu) - rn (r / n)) = z at *
  generalize rn (y' / mu) = p at *
  generalize rn (r / n) = o at *
  generalize y' / mu = p0 at *
  generalize r / n = o0 at *
  generalize y / mu = p1 at *
  generalize r / R = o1 at *
  have e1' := e1.trans (mul_le_mul_of_nonneg_left (t1.trans (add_le_add h1 h2)) hu.le)
  have e2' := e2.trans (mul_le_mul_of_nonneg_left (t2.trans (add_le_add h3 h4)) hu.le)
  have hpo : |(p - o) - (p1 - o1)| ≤ 13.7 * u * w + 6.1 * u := by
    have : |(p - o) - (p1 - o1)| ≤ (|p - p0| + |o - o0|) + (|p0 - p1| + |o0 - o1|) := by
      have e : (p - o) - (p1 - o1) = ((p - p0) + -(o - o0)) + ((p0 - p1) + -(o0 - o1)) := by ring
      have c1 := abs_add_le ((p - p0) + -(o - o0)) ((p0 - p1) + -(o0 - o1))
      have c2 := abs_add_le (p - p0) (-(o - o0))
      have c3 := abs_add_le (p0 - p1) (-(o0 - o1))
      rw [abs_neg] at c2 c3
      rw [e]; linarith
    linarith
  have hab : |p - o| ≤ 1.01 * (w + 1) := by
    have c1 := abs_add_le ((p - o) - (p1 - o1)) (p1 - o1)
    rw [sub_add_cancel] at c1
    have c2 := abs_sub p1 o1
    have : u * w ≤ 0.0001 * w := mul_le_mul_of_nonneg_right (by linarith) w0
    linarith
  have e3' := e3.trans (mul_le_mul_of_nonneg_left hab hu.le)
  have c1 := abs_add_le (z - (p - o)) ((p - o) - (p1 - o1))
  rw [sub_add_sub_cancel] at c1
  linarith

theorem eccVecD_err {B : Blas} (hB : B.Ok) (x : RV ℝ) {mu : ℝ} (hmu : 0 < mu) (hr : x.r ≠ 0) :
    ∃ ev, eccVecD A B x mu = some ev ∧
      norm (ev - eccVec x mu) ≤ 26 * u * (norm x.v * (norm x.r * norm x.v) / mu + 1) := by
  have hR := norm_pos hr
  have hn := hB.norm x.r
  have np := hn.pos hR
  have hu := u_pos
  set s := norm x.v * (norm x.r * norm x.v) with hs
  have s0 : 0 ≤ s := mul_nonneg (norm_nonneg _) (mul_nonneg hR.le (norm_nonneg _))
  obtain ⟨d1, d2, d3⟩ := crossD_err hA x.r x.v x.v (k := 0) le_rfl (by norm_num) le_rfl (by simp) (by simp) (by simp)
  obtain ⟨c1, c2, c3⟩ := crossD_err hA x.v (cross x.r x.v) (A.cross x.r x.v) (k := 4.2) (q := norm x.r * norm x.v) (by norm_num) (by norm_num)
    (norm_cross_le _ _) (d1.trans (le_of_eq (by ring))) (d2.trans (le_of_eq (by ring))) (d3.trans (le_of_eq (by ring)))
  have hle : norm (cross x.v (cross x.r x.v)) ≤ s :=
    (norm_cross_le _ _).trans (mul_le_mul_of_nonneg_left (norm_cross_le _ _) (norm_nonneg _))
  obtain ⟨y1, y2, y3⟩ := abs_x_le (cross x.v (cross x.r x.v))
  obtain ⟨r1, r2, r3⟩ := abs_x_le x.r
  refine ⟨_, by
    unfold eccVecD Arith.vdiv? angMomD
    rw [if_neg hmu.ne', if_neg np.ne']
    rfl, ?_⟩
  refine (norm_le_of_comp (m := 14.9 * u * (s / mu + 1)) (by positivity) ?_ ?_ ?_).trans ?_
  · have := eccD_comp hmu s0 (y1.trans hle) (c1.trans (le_of_eq (by rw [hs]; ring))) hR r1 hn
    simpa only [Arith.sub, eccVec, hA.rd, V3.sub_x, V3.smul_x, one_div, inv_mul_eq_div] using this
  · have := eccD_comp hmu s0 (y2.trans hle) (c2.trans (le_of_eq (by rw [hs]; ring))) hR r2 hn
    simpa only [Arith.sub, eccVec, hA.rd, V3.sub_y, V3.smul_y, one_div, inv_mul_eq_div] using this
  · have := eccD_comp hmu s0 (y3.trans hle) (c3.trans (le_of_eq (by rw [hs]; ring))) hR r3 hn
    simpa only [Arith.sub, eccVec, hA.rd, V3.sub_z, V3.smul_z, one_div, inv_mul_eq_div] using this
  · have : 0 ≤ u * (s / mu + 1) := by positivity
    linarith

/-- **C85.** The eccentricity is a number for every position that is not zero, and accurate to 32 units (of 2⁻⁵³) times `1 + r v² / mu`. -/
theorem C85_eccentricity {B : Blas} (hB : B.Ok) (x : RV ℝ) {mu : ℝ} (hmu : 0 < mu) (hr : x.r ≠ 0) :
    ∃ e, (ic2parD A B x mu).e = some e ∧
      |e - norm (cross x.v (cross x.r x.v) - (mu / norm x.r) • x.r) / mu| ≤ 32 * 2⁻¹ ^ 53 * (norm x.r * norm x.v ^ 2 / mu + 1) := by
  obtain ⟨ev, h1, h2⟩ := eccVecD_err hA hB x hmu hr
  have hR := norm_pos hr
  have hu := u_pos
  have hus := u_small
  refine ⟨B.norm ev, by unfold ic2parD; rw [h1]; rfl, ?_⟩
  have hw : norm x.v * (norm x.r * norm x.v) / mu = norm x.r * norm x.v ^ 2 / mu := by ring
  rw [hw] at h2
  have hu' : (2⁻¹ : ℝ) ^ 53 = u := by unfold u; norm_num
  rw [hu']
  have he : norm (cross x.v (cross x.r x.v) - (mu / norm x.r) • x.r) / mu = norm (eccVec x mu) := by
    rw [div_eq_inv_mul]
    have hs := norm_smul_pos' (inv_pos.2 hmu) (cross x.v (cross x.r x.v) - (mu / norm x.r) • x.r)
    rw [← hs]
    congr 1
    unfold eccVec
    ext <;> simp <;> field_simp
  rw [he]
  set w := norm x.r * norm x.v ^ 2 / mu with hw'
  have w0 : 0 ≤ w := by have := norm_nonneg x.v; positivity
  have hle : norm (eccVec x mu) ≤ w + 1 := by
    have t := norm_sub_le' ((1 / mu) • cross x.v (cross x.r x.v)) ((1 / norm x.r) • x.r)
    rw [norm_smul_pos' (one_div_pos.2 hmu), norm_smul_pos' (one_div_pos.2 hR), one_div_mul_cancel hR.ne'] at t
    have c1 : norm (cross x.v (cross x.r x.v)) ≤ norm x.v * (norm x.r * norm x.v) :=
      (norm_cross_le _ _).trans (mul_le_mul_of_nonneg_left (norm_cross_le _ _) (norm_nonneg _))
    have c2 := mul_le_mul_of_nonneg_left c1 (one_div_pos.2 hmu).le
    rw [one_div, inv_mul_eq_div, inv_mul_eq_div, hw] at c2
    rw [one_div_mul_eq_div mu] at t
    exact t.trans (by linarith)
  have t1 := norm_sub_le' (ev - eccVec x mu) (-(eccVec x mu))
  have t2 := norm_sub_le' ev (ev - eccVec x mu)
  have n1 : norm (-(eccVec x mu)) = norm (eccVec x mu) := by unfold V3.norm V3.dot; simp
  have s1 : ev - eccVec x mu - -(eccVec x mu) = ev := by ext <;> simp
  have s2 : ev - (ev - eccVec x mu) = eccVec x mu := by ext <;> simp
  rw [s1, n1] at t1
  rw [s2] at t2
  have hn := (hB.norm ev).2.2.2
  have uw : u * w ≤ 0.0001 * w := mul_le_mul_of_nonneg_right (by linarith) w0
  have b1 : norm ev ≤ 1.01 * (w + 1) := by linarith
  have b2 := mul_le_mul_of_nonneg_left b1 (show 0 ≤ 5 * u by linarith)
  have uw0 : 0 ≤ u * w := by positivity
  rw [abs_le] at hn ⊢
  constructor <;> linarith [hn.1, hn.2]

end Ecc

/-! ## A case -/

/-- The state at perigee meets the hypotheses of all the theorems, for a correctly rounded library and sums from left to right. -/
example : Arith.rounded.Double ∧ (Blas.naive Arith.rounded).Ok ∧ angMomD Arith.rounded perigee ≠ 0 ∧
    ((angMomD Arith.rounded perigee).x ≠ 0 ∨ (angMomD Arith.rounded perigee).y ≠ 0) ∧ perigee.r ≠ 0 ∧ 0 < muEarth ∧
    ∃ ev n, eccVecD Arith.rounded (Blas.naive Arith.rounded) perigee muEarth = some ev ∧ ev ≠ 0 ∧
      nodeD Arith.rounded (Blas.naive Arith.rounded) perigee = some n := by
  have hA := Arith.rounded_double
  have hB := Blas.naive_ok hA
  have hh := perigee_h hA
  have hy : (angMomD Arith.rounded perigee).y ≠ 0 := by rw [hh]; norm_num
  obtain ⟨n, hn, -⟩ := node_unit hA hB (nodeA_ne hA (x := perigee) (Or.inr hy))
  refine ⟨hA, hB, fun h => hy (by rw [h]; rfl), Or.inr hy, fun h => ?_, by unfold muEarth; norm_num, _, n, perigee_ecc hA hB, fun h => ?_, hn⟩
  · have := congrArg V3.x h; simp [perigee] at this
  · have := congrArg V3.x h; simp at this

end Kep3
