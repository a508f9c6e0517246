import Verif.Lambert.Props32

/-!
# Every transfer belongs to one value of the iteration variable
-/

namespace Kep3
open Real V3

namespace Lambert
section
variable {r0 r1 : V3 ℝ} {cw : Bool} {g : Geom} {f : Frame} {ct st rho sg mu : ℝ}

theorem Spec.lam_ne (S : Spec r0 r1 cw g f ct st rho sg) (hz : (cross r0 r1).z ≠ 0) : g.lam ≠ 0 := by
  intro h
  have hs := S.sin_eq
  rw [h] at hs
  have : st = 0 := by
    have := S.Rs_pos; have := S.Rf_pos
    have h0 : g.Rs * g.Rf ≠ 0 := by positivity
    apply mul_left_cancel₀ h0
    rw [hs]; ring
  apply hz
  rw [S.r0_eq, S.r1_eq, S.irf_eq, this]
  simp; ring

/-- A vector of the plane is determined by its products with the two positions. -/
theorem Spec.plane_eq (S : Spec r0 r1 cw g f ct st rho sg) (hz : (cross r0 r1).z ≠ 0) {e e' : V3 ℝ}
    (h0 : dot e r0 = dot e' r0) (h1 : dot e r1 = dot e' r1) (hn : dot e (cross r0 r1) = dot e' (cross r0 r1)) : e = e' := by
  have hcc : dot (cross r0 r1) (cross r0 r1) ≠ 0 := by
    have h : cross r0 r1 ≠ 0 := by intro h; rw [h] at hz; exact hz rfl
    rw [← norm_sq]; exact (pow_pos (norm_pos h) 2).ne'
  have key : ∀ u : V3 ℝ, dot (cross r0 r1) (cross r0 r1) • u
      = dot u r0 • cross r1 (cross r0 r1) + dot u r1 • cross (cross r0 r1) r0 + dot u (cross r0 r1) • cross r0 r1 := by
    intro u
    ext <;> simp [dot] <;> ring
  have e1 : dot (cross r0 r1) (cross r0 r1) • e = dot (cross r0 r1) (cross r0 r1) • e' := by
    rw [key e, key e', h0, h1, hn]
  have a1 := congrArg V3.x e1
  have a2 := congrArg V3.y e1
  have a3 := congrArg V3.z e1
  simp only [smul_x, smul_y, smul_z] at a1 a2 a3
  ext
  · exact mul_left_cancel₀ hcc a1
  · exact mul_left_cancel₀ hcc a2
  · exact mul_left_cancel₀ hcc a3

theorem eccVec_angMom (x : RV ℝ) (mu : ℝ) : dot (eccVec x mu) (angMom x) = 0 := by
  unfold eccVec angMom; simp [dot]; ring

/-- Two states of one orbit at the two positions belong to a value of the iteration variable. -/
theorem param (S : Spec r0 r1 cw g f ct st rho sg) (hz : (cross r0 r1).z ≠ 0) (hmu : 0 < mu) {v v' : V3 ℝ} {h : ℝ}
    (hh : 0 < h) (hA : angMom ⟨r0, v⟩ = h • cross f.irs f.its) (hA' : angMom ⟨r1, v'⟩ = h • cross f.irs f.its)
    (he : eccVec ⟨r0, v⟩ mu = eccVec ⟨r1, v'⟩ mu) : ∃ x, velocities g mu x = some (v, v') := by
  have hl := S.lam_lt
  have hl0 := S.lam_ne hz
  have hs := S.s_pos
  have hga : 0 < √(mu * g.s / 2) := sqrt_pos.2 (by positivity)
  have hsg := S.sg_pos
  obtain ⟨p, hp⟩ : ∃ p, p = h / (√(mu * g.s / 2) * sg) := ⟨_, rfl⟩
  have hp0 : 0 < p := by rw [hp]; positivity
  obtain ⟨x, hx⟩ : ∃ x, x = (p ^ 2 - (1 - g.lam ^ 2)) / (2 * g.lam * p) := ⟨_, rfl⟩
  have hlx : g.lam * x = (p ^ 2 - (1 - g.lam ^ 2)) / (2 * p) := by rw [hx]; field_simp
  have hy : yOf g.lam x = (p ^ 2 + (1 - g.lam ^ 2)) / (2 * p) := by
    unfold yOf
    have e : 1 - g.lam ^ 2 + g.lam ^ 2 * x ^ 2 = ((p ^ 2 + (1 - g.lam ^ 2)) / (2 * p)) ^ 2 := by
      rw [← mul_pow, hlx]; field_simp; ring
    rw [e, sqrt_sq]
    have : 0 < 1 - g.lam ^ 2 := by linarith
    positivity
  have hsum : yOf g.lam x + g.lam * x = p := by rw [hy, hlx]; field_simp; ring
  obtain ⟨v0, v1, hv, -, -, ⟨k, hk, hB, hB'⟩, hec⟩ := orbit S hmu x
  have hkh : angMom ⟨r0, v0⟩ = h • cross f.irs f.its := by
    have h1 := velocities_ok S hmu x
    rw [hv] at h1
    simp only [Option.some.injEq, Prod.mk.injEq] at h1
    rw [h1.1, S.r0_eq, angMom_local, hsum, hp]
    congr 1
    have := S.Rs_pos
    field_simp
  have hkh' : angMom ⟨r1, v1⟩ = h • cross f.irs f.its := by rw [hB', ← hB, hkh]
  have hn0 : r0 ≠ 0 := by rintro rfl; apply hz; simp
  have hn1 : r1 ≠ 0 := by rintro rfl; apply hz; simp
  have hWne : angMom ⟨r0, v0⟩ ≠ 0 := by
    rw [hkh]
    intro h0
    have hW : dot (cross f.irs f.its) (cross f.irs f.its) = 1 := by
      rw [cross_dot_cross, S.uu, S.tt, S.ut]; ring
    have := congrArg (fun d => dot d (cross f.irs f.its)) h0
    simp only [smul_dot, hW] at this
    have z : dot (0 : V3 ℝ) (cross f.irs f.its) = 0 := by simp [dot]
    rw [z] at this
    linarith
  have hwne : angMom ⟨r1, v1⟩ ≠ 0 := by rw [hkh', ← hkh]; exact hWne
  have hecc : eccVec ⟨r0, v0⟩ mu = eccVec ⟨r0, v⟩ mu := by
    refine S.plane_eq hz ?_ ?_ ?_
    · have a := eccVec_r (x := ⟨r0, v0⟩) (mu := mu) hn0
      have b := eccVec_r (x := ⟨r0, v⟩) (mu := mu) hn0
      simp only at a b
      rw [a, b, hkh, hA]
    · rw [hec, he]
      have a := eccVec_r (x := ⟨r1, v1⟩) (mu := mu) hn1
      have b := eccVec_r (x := ⟨r1, v'⟩) (mu := mu) hn1
      simp only at a b
      rw [a, b, hkh', hA']
    · have e : cross r0 r1 = (g.Rs * g.Rf * st) • cross f.irs f.its := by
        rw [S.r0_eq, S.r1_eq, S.irf_eq]; ext <;> simp <;> ring
      have z : ∀ (u : V3 ℝ), dot (eccVec ⟨r0, u⟩ mu) (angMom ⟨r0, u⟩) = 0 := fun u => eccVec_angMom _ _
      have z0 := z v0
      have z1 := z v
      rw [hkh, dot_smul] at z0
      rw [hA, dot_smul] at z1
      rw [e, dot_smul, dot_smul, (mul_eq_zero.1 z0).resolve_left hh.ne', (mul_eq_zero.1 z1).resolve_left hh.ne']
  have e0 : v0 = v := eq_of_invariants hmu hWne (by rw [hkh, hA]) hecc
  have e1 : v1 = v' := eq_of_invariants hmu hwne (by rw [hkh', hA']) (by rw [← hec, hecc, he])
  exact ⟨x, by rw [hv, e0, e1]⟩

end

theorem same_turn {A B N : ℝ} (hsin : sin A = sin B) (hcos : cos A = cos B) (h1 : 2 * π * N < A) (h2 : A < 2 * π * (N + 1))
    (h3 : 2 * π * N < B) (h4 : B < 2 * π * (N + 1)) : A = B := by
  have hdiff : cos (A - B) = 1 := by
    rw [cos_sub, hsin, hcos]
    have := sin_sq_add_cos_sq B
    linear_combination this
  obtain ⟨n, hn⟩ := (cos_eq_one_iff _).1 hdiff
  have hpi := pi_pos
  have n1 : (n : ℝ) < 1 := by
    have : (n : ℝ) * (2 * π) < 1 * (2 * π) := by rw [hn]; linarith
    exact lt_of_mul_lt_mul_right this (by positivity)
  have n2 : (-1 : ℝ) < n := by
    have : (-1) * (2 * π) < (n : ℝ) * (2 * π) := by rw [hn]; linarith
    exact lt_of_mul_lt_mul_right this (by positivity)
  have n0 : n = 0 := by
    have a1 : n < 1 := by exact_mod_cast n1
    have a2 : -1 < n := by exact_mod_cast n2
    omega
  rw [n0] at hn
  simp only [Int.cast_zero, zero_mul] at hn
  linarith

/-- A two-body transfer from `r0` to `r1` in the time `tof`, in the direction asked for, with `N` complete revolutions (on an
ellipse; other orbits have none). -/
def Transfer (r0 r1 : V3 ℝ) (tof mu : ℝ) (cw : Bool) (N : ℕ) (v0 v1 : V3 ℝ) : Prop :=
  (if cw then (cross r0 v0).z < 0 else 0 < (cross r0 v0).z) ∧
  (∃ γ, TwoBody mu γ ∧ γ 0 = ⟨r0, v0⟩ ∧ γ tof = ⟨r1, v1⟩) ∧
  (∀ a, 0 < a → energy ⟨r0, v0⟩ mu = -(mu / (2 * a)) →
    N * (2 * π * √(a ^ 3 / mu)) < tof ∧ tof < (N + 1) * (2 * π * √(a ^ 3 / mu))) ∧
  (0 ≤ energy ⟨r0, v0⟩ mu → N = 0)

section
variable {r0 r1 : V3 ℝ} {cw : Bool} {g : Geom} {f : Frame} {ct st rho sg mu : ℝ}

theorem period_eq {b mu : ℝ} (hb : 0 < b) (hmu : 0 < mu) : 2 * π * √((1 / b ^ 2) ^ 3 / mu) = 2 * π / (b ^ 3 * √mu) := by
  have hk := sqrt_pos.2 hmu
  rw [sqrt_div (by positivity), show (1 / b ^ 2) ^ 3 = (1 / b ^ 3) ^ 2 by field_simp, sqrt_sq (by positivity)]
  field_simp

theorem time_turns {x : RV ℝ} (hmu : 0 < mu) (hh : angMom x ≠ 0) {b : ℝ} (hb : 0 < b) (ha : alphaOf x mu = b ^ 2) (n : ℕ) :
    timeU x mu (2 * π * n / b) = n * (2 * π / (b ^ 3 * √mu)) := by
  have := (timeU_period_int hmu hh hb ha 0 (n : ℤ)).1
  rw [timeU_zero hmu hh, zero_add, zero_add] at this
  push_cast at this
  rw [this]; ring

set_option maxHeartbeats 1600000 in
/-- A transfer is the same thing as a root of the exact time of flight equation. -/
theorem transfer_iff (S : Spec r0 r1 cw g f ct st rho sg) (hg : geom r0 r1 cw = .ok g) (hz : (cross r0 r1).z ≠ 0)
    (hmu : 0 < mu) {tof : ℝ} (htof : 0 < tof) (N : ℕ) (v0 v1 : V3 ℝ) :
    Transfer r0 r1 tof mu cw N v0 v1 ↔
      ∃ x, -1 < x ∧ (x < 1 ∨ N = 0) ∧ velocities g mu x = some (v0, v1) ∧ tofX g.lam x N = nonDim r0 r1 tof mu := by
  have hs := S.s_pos
  have hkm := sqrt_pos.2 hmu
  have hnd : ∀ t, nonDim r0 r1 t mu = t * √(2 * mu / g.s / g.s / g.s) := by
    intro t; unfold nonDim; rw [geom_s hg]; ring
  have hqp : 0 < √(2 * mu / g.s / g.s / g.s) := sqrt_pos.2 (by positivity)
  have hW : dot (cross f.irs f.its) (cross f.irs f.its) = 1 := by
    rw [cross_dot_cross, S.uu, S.tt, S.ut]; ring
  constructor
  · rintro ⟨hsense, ⟨γ, hγ, g0, g1⟩, hrev, hhyp⟩
    have hh : angMom ⟨r0, v0⟩ ≠ 0 := by
      intro h0
      have : (cross r0 v0).z = 0 := by
        have := congrArg V3.z h0
        exact this
      rw [this] at hsense
      split_ifs at hsense <;> exact lt_irrefl _ hsense
    have hflow := twoBody_unique hmu hγ (by rw [g0]; exact hh) tof
    rw [g0, g1] at hflow
    unfold kepFlow at hflow
    obtain ⟨w, hw⟩ : ∃ w, w = anomU ⟨r0, v0⟩ mu tof := ⟨_, rfl⟩
    have hwt : timeU ⟨r0, v0⟩ mu w = tof := by rw [hw]; exact timeU_anomU hmu hh tof
    rw [← hw] at hflow
    have hmono := timeU_strictMono hmu hh
    have hw0 : 0 < w := by
      rw [← hmono.lt_iff_lt, timeU_zero hmu hh, hwt]; exact htof
    have hA1 := angMom_stateU hmu hh w
    have hE1 := eccVec_stateU hmu hh w
    rw [← hflow] at hA1 hE1
    -- the direction of the angular momentum
    obtain ⟨h, hpos, hA⟩ : ∃ h : ℝ, 0 < h ∧ angMom ⟨r0, v0⟩ = h • cross f.irs f.its := by
      have e : cross r0 r1 = (g.Rs * g.Rf * st) • cross f.irs f.its := by
        rw [S.r0_eq, S.r1_eq, S.irf_eq]; ext <;> simp <;> ring
      have hstne : g.Rs * g.Rf * st ≠ 0 := by
        intro h; rw [e, h] at hz; apply hz; simp
      have o0 : dot (angMom ⟨r0, v0⟩) r0 = 0 := by unfold angMom; simp [dot]; ring
      have o1 : dot (angMom ⟨r0, v0⟩) r1 = 0 := by rw [← hA1]; unfold angMom; simp [dot]; ring
      have hpar : angMom ⟨r0, v0⟩ = dot (angMom ⟨r0, v0⟩) (cross f.irs f.its) • cross f.irs f.its := by
        refine S.plane_eq hz ?_ ?_ ?_
        · rw [o0, smul_dot, S.r0_eq]; simp [dot]; ring_nf; simp
        · rw [o1, smul_dot, S.r1_eq, S.irf_eq]; simp [dot]; ring_nf; simp
        · rw [e, smul_dot, dot_smul, dot_smul, hW]; ring
      refine ⟨_, ?_, hpar⟩
      have hzc : (cross r0 v0).z = dot (angMom ⟨r0, v0⟩) (cross f.irs f.its) * (cross f.irs f.its).z :=
        congrArg V3.z hpar
      generalize dot (angMom ⟨r0, v0⟩) (cross f.irs f.its) = k at *
      have hse := S.sense
      rw [hzc] at hsense
      split_ifs at hse hsense
      · exact pos_of_mul_neg_left hsense hse.le
      · exact (pos_iff_pos_of_mul_pos hsense).2 hse
    obtain ⟨x, hv⟩ := param S hz hmu hpos hA (by rw [hA1, hA]) hE1.symm
    have hst : (stateU ⟨r0, v0⟩ mu w).r = r1 := by rw [← hflow]
    have hl := S.lam_lt
    have hη := yOf_sub hl x
    have hq : 0 < √(g.s / 2) := sqrt_pos.2 (by positivity)
    obtain ⟨D, hD⟩ : ∃ D, D = √(g.s / 2) * (yOf g.lam x - g.lam * x) := ⟨_, rfl⟩
    have hD0 : 0 < D := by rw [hD]; positivity
    obtain ⟨u1, u2⟩ := arrive_inv S hmu x hv rfl hD hst
    have hα := (chord S hmu x hv rfl hD).2.1
    have U1pos : ∀ α ≤ (0 : ℝ), StrictMono (U1 α) := by
      intro α ha
      rcases ha.lt_or_eq with h | h
      · have hb : 0 < √(-α) := sqrt_pos.2 (by linarith)
        have e : α = -√(-α) ^ 2 := by rw [sq_sqrt (by linarith)]; ring
        intro a c hac
        rw [e, U1_neg hb, U1_neg hb]
        exact div_lt_div_of_pos_right (sinh_lt_sinh.2 (mul_lt_mul_of_pos_left hac hb)) hb
      · intro a c hac
        rw [h, U1_zero, U1_zero]; exact hac
    have hx1 : -1 < x := by
      by_contra hcon
      have hx : x ≤ -1 := not_lt.1 hcon
      have ha : 2 * (1 - x ^ 2) / g.s ≤ 0 := by
        apply div_nonpos_of_nonpos_of_nonneg _ hs.le
        nlinarith
      have h0 := U1pos _ ha hw0
      rw [U1_at_zero, u1] at h0
      have hC : 0 < x * yOf g.lam x + g.lam * (1 - x ^ 2) := by
        by_contra hn
        have := mul_nonpos_of_nonpos_of_nonneg (not_lt.1 hn) hD0.le
        nlinarith
      have hya := yOf_abs hl x
      have h1 : x * yOf g.lam x ≤ x * |g.lam * x| := mul_le_mul_of_nonpos_left hya.le (by linarith)
      rw [abs_mul, abs_of_neg (show x < 0 by linarith)] at h1
      have h2 : -|g.lam| ≤ g.lam := neg_abs_le _
      have h3 : 0 ≤ |g.lam| := abs_nonneg _
      have h4 : 0 ≤ (g.lam + |g.lam|) * (x ^ 2 - 1) := mul_nonneg (by linarith) (by nlinarith)
      nlinarith
    have hen : energy ⟨r0, v0⟩ mu = -(mu / 2) * (2 * (1 - x ^ 2) / g.s) := by rw [energy_alpha hmu hh, hα]
    have hxN : x < 1 ∨ N = 0 := by
      rcases lt_or_ge x 1 with h | h
      · exact .inl h
      · right
        apply hhyp
        rw [hen]
        have : 2 * (1 - x ^ 2) / g.s ≤ 0 := by
          apply div_nonpos_of_nonpos_of_nonneg _ hs.le
          nlinarith
        nlinarith
    refine ⟨x, hx1, hxN, hv, ?_⟩
    obtain ⟨-, -, w', s1, s2, s3, s4⟩ := reach S hmu hx1 N hv
    obtain ⟨u1', u2'⟩ := arrive_inv S hmu x hv rfl hD (w := w') (by rw [s1])
    have hww : w' = w := by
      rcases lt_or_ge x 1 with h | h
      · have hpp : 0 < 2 * (1 - x ^ 2) / g.s := div_pos (by nlinarith) hs
        obtain ⟨b, hb⟩ : ∃ b, b = √(2 * (1 - x ^ 2) / g.s) := ⟨_, rfl⟩
        have hb0 : 0 < b := by rw [hb]; exact sqrt_pos.2 hpp
        have hb2 : 2 * (1 - x ^ 2) / g.s = b ^ 2 := by rw [hb, sq_sqrt hpp.le]
        obtain ⟨q1, q2⟩ := s4 h
        rw [← hb] at q1 q2
        rw [hb2] at u1 u2 u1' u2'
        have hrev' := hrev (1 / b ^ 2) (by positivity) (by rw [hen, hb2]; field_simp)
        rw [period_eq hb0 hmu, ← hwt] at hrev'
        have t1 := time_turns hmu hh hb0 (by rw [hα, hb2]) N
        have t2 := time_turns hmu hh hb0 (by rw [hα, hb2]) (N + 1)
        push_cast at t2
        rw [← t1, ← t2, hmono.lt_iff_lt, hmono.lt_iff_lt, div_lt_iff₀ hb0, lt_div_iff₀ hb0] at hrev'
        rw [U1_pos hb0] at u1 u1'
        rw [U2_pos hb0] at u2 u2'
        have hsin : sin (b * w') = sin (b * w) := by
          have := u1'.trans u1.symm
          exact (div_left_inj' hb0.ne').1 this
        have hcos : cos (b * w') = cos (b * w) := by
          have := u2'.trans u2.symm
          have := (div_left_inj' (pow_pos hb0 2).ne').1 this
          linarith
        exact mul_left_cancel₀ hb0.ne' (same_turn (N := N) hsin hcos (by linarith) (by linarith) (by linarith) (by linarith))
      · have ha : 2 * (1 - x ^ 2) / g.s ≤ 0 := by
          apply div_nonpos_of_nonpos_of_nonneg _ hs.le
          nlinarith
        exact (U1pos _ ha).injective (u1'.trans u1.symm)
    rw [← s2, hww, hwt, hnd]
  · rintro ⟨x, hx, hN, hv, ht⟩
    obtain ⟨hh, hα, w, hw1, hw2, hw0, hw3⟩ := reach S hmu hx N hv
    have hmono := timeU_strictMono hmu hh
    have hwt : timeU ⟨r0, v0⟩ mu w = tof := by
      rw [ht, hnd] at hw2
      exact mul_right_cancel₀ hqp.ne' hw2
    have hen : energy ⟨r0, v0⟩ mu = -(mu / 2) * (2 * (1 - x ^ 2) / g.s) := by rw [energy_alpha hmu hh, hα]
    refine ⟨?_, ⟨kepFlow ⟨r0, v0⟩ mu, kepFlow_twoBody hmu hh, kepFlow_zero hmu hh, ?_⟩, ?_, ?_⟩
    · obtain ⟨v0', v1', hv', -, -, ⟨k, hk, hA, -⟩, -⟩ := orbit S hmu x
      obtain ⟨rfl, rfl⟩ : v0 = v0' ∧ v1 = v1' := by rw [hv] at hv'; simpa using hv'
      have hzc : (cross r0 v0).z = k * (cross f.irs f.its).z := congrArg V3.z hA
      have hse := S.sense
      rw [hzc]
      split_ifs at hse ⊢
      · exact mul_neg_of_pos_of_neg hk hse
      · exact mul_pos hk hse
    · rw [kepFlow_of_time hmu hh hwt, hw1]
    · intro a ha hEa
      rw [hen] at hEa
      have hinv : 2 * (1 - x ^ 2) / g.s = 1 / a := by
        have : mu * (2 * (1 - x ^ 2) / g.s) = mu * (1 / a) := by
          have e : mu * (1 / a) = 2 * (mu / (2 * a)) := by field_simp
          rw [e]; linarith
        exact mul_left_cancel₀ hmu.ne' this
      have hpp : 0 < 2 * (1 - x ^ 2) / g.s := by rw [hinv]; positivity
      have hx2 : x < 1 := by
        by_contra h
        have : 2 * (1 - x ^ 2) / g.s ≤ 0 := by
          apply div_nonpos_of_nonpos_of_nonneg _ hs.le
          nlinarith [not_lt.1 h]
        linarith
      obtain ⟨q1, q2⟩ := hw3 hx2
      obtain ⟨b, hb⟩ : ∃ b, b = √(2 * (1 - x ^ 2) / g.s) := ⟨_, rfl⟩
      have hb0 : 0 < b := by rw [hb]; exact sqrt_pos.2 hpp
      have hb2 : 2 * (1 - x ^ 2) / g.s = b ^ 2 := by rw [hb, sq_sqrt hpp.le]
      have hab : a = 1 / b ^ 2 := by rw [← hb2, hinv]; field_simp
      rw [← hb] at q1 q2
      rw [hab, period_eq hb0 hmu]
      have t1 := time_turns hmu hh hb0 (by rw [hα, hb2]) N
      have t2 := time_turns hmu hh hb0 (by rw [hα, hb2]) (N + 1)
      push_cast at t2
      rw [← t1, ← t2, ← hwt, hmono.lt_iff_lt, hmono.lt_iff_lt, div_lt_iff₀ hb0, lt_div_iff₀ hb0]
      constructor <;> linarith
    · intro h0
      rcases hN with h | h
      · exfalso
        rw [hen] at h0
        have hpp : 0 < 2 * (1 - x ^ 2) / g.s := div_pos (by nlinarith) hs
        nlinarith
      · exact h
end

end Lambert
end Kep3
