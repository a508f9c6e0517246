import Verif.Kepler.Anomalies
import Mathlib.Analysis.Real.Pi.Bounds
import Mathlib.Analysis.Calculus.Deriv.MeanValue

/-!
# Kepler's equation (C14)
-/

namespace Kep3

open Real

/-- The mean anomaly of eccentric anomaly `E`. -/
noncomputable def keplerE (e E : ℝ) : ℝ := E - e * sin E
/-- The hyperbolic mean anomaly of hyperbolic anomaly `H`. -/
noncomputable def keplerH (e H : ℝ) : ℝ := e * sinh H - H

theorem keplerE_strictMono {e : ℝ} (h0 : 0 ≤ e) (h1 : e < 1) : StrictMono (keplerE e) := by
  refine strictMono_of_hasDerivAt_pos (f' := fun E => 1 - e * cos E) (fun E => ?_) (fun E => ?_)
  · exact (hasDerivAt_id E).sub ((hasDerivAt_sin E).const_mul e)
  · show 0 < 1 - e * cos E
    have := cos_le_one E
    nlinarith

theorem keplerE_continuous (e : ℝ) : Continuous (keplerE e) :=
  continuous_id.sub (continuous_sin.const_mul e)

/-- A solution close to the mean anomaly. -/
theorem keplerE_root {e : ℝ} (h0 : 0 ≤ e) (h1 : e < 1) (M : ℝ) : ∃ E, |E - M| ≤ 1 ∧ keplerE e E = M := by
  have hc := (keplerE_continuous e).continuousOn (s := Set.Icc (M - 1) (M + 1))
  have := intermediate_value_Icc (by linarith) hc
  have hm : M ∈ Set.Icc (keplerE e (M - 1)) (keplerE e (M + 1)) := by
    unfold keplerE
    have a1 := neg_one_le_sin (M - 1)
    have a2 := neg_one_le_sin (M + 1)
    have b1 := sin_le_one (M - 1)
    have b2 := sin_le_one (M + 1)
    constructor <;> nlinarith
  obtain ⟨E, hE, h⟩ := this hm
  exact ⟨E, abs_le.2 ⟨by linarith [hE.1], by linarith [hE.2]⟩, h⟩

theorem keplerE_bijective {e : ℝ} (h0 : 0 ≤ e) (h1 : e < 1) : Function.Bijective (keplerE e) :=
  ⟨(keplerE_strictMono h0 h1).injective, fun M => (keplerE_root h0 h1 M).imp fun _ h => h.2⟩

theorem keplerE_mem {e : ℝ} (h0 : 0 ≤ e) (h1 : e < 1) {E : ℝ} :
    (-π < keplerE e E ∧ keplerE e E ≤ π) ↔ (-π < E ∧ E ≤ π) := by
  have a : keplerE e (-π) = -π := by simp [keplerE]
  have b : keplerE e π = π := by simp [keplerE]
  have hm := keplerE_strictMono h0 h1
  constructor
  · rintro ⟨h, h'⟩
    rw [← a] at h; rw [← b] at h'
    exact ⟨hm.lt_iff_lt.1 h, hm.le_iff_le.1 h'⟩
  · rintro ⟨h, h'⟩
    have := hm.lt_iff_lt.2 h; have h2 := hm.le_iff_le.2 h'
    rw [a] at this; rw [b] at h2
    exact ⟨this, h2⟩

theorem keplerH_strictMono {e : ℝ} (h1 : 1 < e) : StrictMono (keplerH e) := by
  refine strictMono_of_hasDerivAt_pos (f' := fun H => e * cosh H - 1) (fun H => ?_) (fun H => ?_)
  · exact ((Real.hasDerivAt_sinh H).const_mul e).sub (hasDerivAt_id H)
  · show 0 < e * cosh H - 1
    have := one_le_cosh H
    nlinarith

theorem keplerH_continuous (e : ℝ) : Continuous (keplerH e) :=
  (continuous_sinh.const_mul e).sub continuous_id

theorem keplerH_bijective {e : ℝ} (h1 : 1 < e) : Function.Bijective (keplerH e) := by
  refine ⟨(keplerH_strictMono h1).injective, fun N => ?_⟩
  -- e sinh H - H ≥ (e - 1) H for H ≥ 0
  set b := |N| / (e - 1) with hb
  have p : 0 < e - 1 := by linarith
  have hb0 : 0 ≤ b := by positivity
  have hs : b ≤ sinh b := Real.self_le_sinh_iff.2 hb0
  have hbN : (e - 1) * b = |N| := by rw [hb]; field_simp
  have h2 : |N| ≤ keplerH e b := by unfold keplerH; nlinarith
  have h3 : keplerH e (-b) = -keplerH e b := by unfold keplerH; rw [sinh_neg]; ring
  have hc := (keplerH_continuous e).continuousOn (s := Set.Icc (-b) b)
  obtain ⟨H, -, h⟩ := intermediate_value_Icc (by linarith) hc
    (show N ∈ Set.Icc (keplerH e (-b)) (keplerH e b) from
      ⟨by rw [h3]; linarith [neg_abs_le N], by linarith [le_abs_self N]⟩)
  exact ⟨H, h⟩

/-- **C14**: `e2m` is a strictly increasing bijection of the real line for `0 ≤ ecc < 1`, and `h2n` for
`ecc > 1`. -/
theorem C14_mean_anomaly_bijective :
    (∀ ecc, 0 ≤ ecc → ecc < 1 → (∀ E E', E < E' → ∃ M M', e2m E ecc = some M ∧ e2m E' ecc = some M' ∧ M < M') ∧
      ∀ M, ∃ E, e2m E ecc = some M) ∧
    (∀ ecc, 1 < ecc → (∀ H H', H < H' → ∃ N N', h2n H ecc = some N ∧ h2n H' ecc = some N' ∧ N < N') ∧
      ∀ N, ∃ H, h2n H ecc = some N) := by
  constructor
  · intro ecc h0 h1
    refine ⟨fun E E' h => ⟨keplerE ecc E, keplerE ecc E', ?_, ?_, keplerE_strictMono h0 h1 h⟩, fun M => ?_⟩
    · unfold e2m; rw [if_neg h1.not_ge]; rfl
    · unfold e2m; rw [if_neg h1.not_ge]; rfl
    · obtain ⟨E, hE⟩ := (keplerE_bijective h0 h1).2 M
      exact ⟨E, by unfold e2m; rw [if_neg h1.not_ge, ← hE]; rfl⟩
  · intro ecc h1
    refine ⟨fun E E' h => ⟨keplerH ecc E, keplerH ecc E', ?_, ?_, keplerH_strictMono h1 h⟩, fun M => ?_⟩
    · unfold h2n; rw [if_neg h1.not_ge]; rfl
    · unfold h2n; rw [if_neg h1.not_ge]; rfl
    · obtain ⟨E, hE⟩ := (keplerH_bijective h1).2 M
      exact ⟨E, by unfold h2n; rw [if_neg h1.not_ge, ← hE]; rfl⟩

/-- The third-order correction of the initial guess is at most 2. -/
theorem guess_bound {e : ℝ} (h0 : 0 ≤ e) (h1 : e < 1) (s c : ℝ) (h : c ^ 2 + s ^ 2 = 1) :
    |e * s + e * e * s * c + e * e * e * s * ((3 / 2 : ℝ) * c * c - 1 / 2)| ≤ 2 := by
  have hs : |s| ≤ 1 := abs_le_one_iff_mul_self_le_one.2 (by nlinarith)
  have hsc : |s * c| ≤ 1 / 2 := abs_le.2 ⟨by nlinarith [sq_nonneg (s + c)], by nlinarith [sq_nonneg (s - c)]⟩
  have hq : |s * ((3 / 2 : ℝ) * c * c - 1 / 2)| ≤ 1 / 2 := by
    have : (3 / 2 : ℝ) * c * c - 1 / 2 = 1 - 3 / 2 * s ^ 2 := by linear_combination 3 / 2 * h
    rw [this, abs_le]
    obtain ⟨a1, a2⟩ := abs_le.1 hs
    constructor
    · nlinarith [mul_nonneg (sub_nonneg.2 a2) (sq_nonneg (s + 1 / 2)), sq_nonneg (s + 1), sq_nonneg s]
    · nlinarith [mul_nonneg (by linarith : (0 : ℝ) ≤ s + 1) (sq_nonneg (s - 1 / 2)), sq_nonneg (s - 1), sq_nonneg s]
  have e2 : e * e ≤ 1 := by nlinarith
  have e3 : e * e * e ≤ 1 := by nlinarith [mul_nonneg h0 h0]
  calc |e * s + e * e * s * c + e * e * e * s * ((3 / 2 : ℝ) * c * c - 1 / 2)|
      ≤ |e * s| + |e * e * s * c| + |e * e * e * s * ((3 / 2 : ℝ) * c * c - 1 / 2)| := abs_add_three _ _ _
    _ = e * |s| + e * e * |s * c| + e * e * e * |s * ((3 / 2 : ℝ) * c * c - 1 / 2)| := by
        rw [abs_mul e s, abs_of_nonneg h0, show e * e * s * c = (e * e) * (s * c) by ring, abs_mul (e * e),
          abs_of_nonneg (by positivity : 0 ≤ e * e), mul_assoc (e * e * e), abs_mul (e * e * e),
          abs_of_nonneg (by positivity : 0 ≤ e * e * e)]
    _ ≤ 1 * 1 + 1 * (1 / 2) + 1 * (1 / 2) := by gcongr
    _ = 2 := by norm_num

/-- **C14**, ellipses: with a sound root finder `m2e` either throws (iterations used up) or returns the
solution of Kepler's equation in (-π, π] for the mean anomaly changed by whole turns; the solution is always in the
bracket handed to the root finder, and it is the only one. -/
theorem C14_m2e (sv : Solver) (hsv : sv.Sound) {ecc : ℝ} (h0 : 0 ≤ ecc) (h1 : ecc < 1) (M : ℝ) :
    m2e sv M ecc = .err .domainError ∨
      ∃ E, m2e sv M ecc = .ok (some E) ∧ -π < E ∧ E ≤ π ∧ (∃ k : ℤ, E - ecc * sin E = M + 2 * π * k) ∧
        ∀ E', -π < E' → E' ≤ π → (∃ k : ℤ, E' - ecc * sin E' = M + 2 * π * k) → E' = E := by
  obtain ⟨k, hk, hsin, hcos⟩ := atan2_crop M
  have hmem := atan2_mem (sin M) (cos M)
  set Mc := atan2 (sin M) (cos M) with hMc
  set d := ecc * sin M + ecc * ecc * sin M * cos M
    + ecc * ecc * ecc * sin M * ((3 / 2 : ℝ) * cos M * cos M - (1 / 2 : ℝ)) with hd
  have hdb : |d| ≤ 2 := guess_bound h0 h1 (sin M) (cos M) (cos_sq_add_sin_sq M)
  have hIG : Mc + ecc * sin M + ecc * ecc * sin M * cos M
      + ecc * ecc * ecc * sin M * ((3 / 2 : ℝ) * cos M * cos M - (1 / 2 : ℝ)) = Mc + d := by rw [hd]; ring
  obtain ⟨E0, hE0, hroot⟩ := keplerE_root h0 h1 Mc
  obtain ⟨d1, d2⟩ := abs_le.1 hdb
  obtain ⟨e1, e2⟩ := abs_le.1 hE0
  have hpi := pi_gt_three
  have hs := hsv (fun E => (kepE E Mc ecc, d_kepE E ecc)) (Mc + d) (Mc + d - π) (Mc + d + π) (by linarith)
    (by linarith) ⟨E0, by linarith, by linarith, by
      show E0 - ecc * sin E0 - Mc = 0
      have : E0 - ecc * sin E0 = Mc := hroot
      linarith⟩
  unfold m2e
  rw [if_neg h1.not_ge]
  dsimp only
  rw [← hMc, hIG]
  by_cases hit : (sv (fun E => (kepE E Mc ecc, d_kepE E ecc)) (Mc + d) (Mc + d - π) (Mc + d + π)).2 = 100
  · left; rw [if_pos hit]
  · right
    rw [if_neg hit]
    obtain ⟨-, -, h⟩ := hs hit
    set E := (sv (fun E => (kepE E Mc ecc, d_kepE E ecc)) (Mc + d) (Mc + d - π) (Mc + d + π)).1 with hE
    have hE2 : keplerE ecc E = Mc := by
      have : E - ecc * sin E - Mc = 0 := h
      show E - ecc * sin E = Mc
      linarith
    have hEm := (keplerE_mem h0 h1 (E := E)).1 (by rw [hE2]; exact hmem)
    refine ⟨E, rfl, hEm.1, hEm.2, ⟨k, by rw [← hk]; exact hE2⟩, ?_⟩
    rintro E' a1 a2 ⟨k', hk'⟩
    have hE'm := (keplerE_mem h0 h1 (E := E')).2 ⟨a1, a2⟩
    have hk'2 : keplerE ecc E' = M + 2 * π * k' := hk'
    apply (keplerE_strictMono h0 h1).injective
    rw [hE2, hk'2, hk]
    have : (k' : ℝ) = k := by
      rw [hk'2] at hE'm
      rw [hk] at hmem
      have u1 : (-1 : ℝ) < k' - k := by nlinarith [hE'm.1, hE'm.2, hmem.1, hmem.2]
      have u2 : (k' : ℝ) - k < 1 := by nlinarith [hE'm.1, hE'm.2, hmem.1, hmem.2]
      have u3 : -1 < k' - k := by exact_mod_cast u1
      have u4 : k' - k < 1 := by exact_mod_cast u2
      have : k' = k := by omega
      exact_mod_cast this
    rw [this]

/-- **C14**: `m2e` undoes `e2m` on (-π, π], and `e2m` undoes `m2e` up to whole turns. -/
theorem C14_m2e_e2m (sv : Solver) (hsv : sv.Sound) {ecc : ℝ} (h0 : 0 ≤ ecc) (h1 : ecc < 1) :
    (∀ E M, -π < E → E ≤ π → e2m E ecc = some M → m2e sv M ecc = .err .domainError ∨ m2e sv M ecc = .ok (some E)) ∧
    (∀ M E, m2e sv M ecc = .ok (some E) → ∃ k : ℤ, e2m E ecc = some (M + 2 * π * k)) := by
  constructor
  · intro E M a1 a2 hM
    unfold e2m at hM
    rw [if_neg h1.not_ge] at hM
    have hM := Option.some.inj hM
    rcases C14_m2e sv hsv h0 h1 M with h | ⟨E', h, -, -, -, hu⟩
    · exact Or.inl h
    · right
      rw [h, hu E a1 a2 ⟨0, by rw [hM]; simp⟩]
  · intro M E hE
    rcases C14_m2e sv hsv h0 h1 M with h | ⟨E', h, -, -, ⟨k, hk⟩, -⟩
    · rw [h] at hE; exact absurd hE (by simp)
    · rw [h] at hE
      have := Option.some.inj (Res.ok.inj hE)
      subst this
      exact ⟨k, by unfold e2m; rw [if_neg h1.not_ge, hk]⟩

/-- **C14**: `m2f` undoes `f2m` on (-π, π). -/
theorem C14_m2f_f2m (sv : Solver) (hsv : sv.Sound) {ecc f : ℝ} (h0 : 0 ≤ ecc) (h1 : ecc < 1) (hf1 : -π < f)
    (hf2 : f < π) : ∃ M, f2m f ecc = some M ∧ (m2f sv M ecc = .err .domainError ∨ m2f sv M ecc = .ok (some f)) := by
  obtain ⟨E, hE, a1, a2, hback⟩ := (C12_ellipse h0 h1).2 f hf1 hf2
  refine ⟨E - ecc * sin E, ?_, ?_⟩
  · unfold f2m e2m
    simp only [if_neg h1.not_ge, hE]
    rfl
  · unfold m2f
    rw [if_neg h1.not_ge]
    rcases (C14_m2e_e2m sv hsv h0 h1).1 E (E - ecc * sin E) a1 a2.le (by unfold e2m; rw [if_neg h1.not_ge]) with h | h
    · left; rw [h]; rfl
    · right
      rw [h]
      show Res.ok (e2f E ecc) = _
      rw [hback]

/-- **C14**, hyperbolas: for mean anomalies reached inside the bracket `1 ± 20 π`, `n2h` either throws or returns the
unique solution of the hyperbolic Kepler equation. -/
theorem C14_n2h (sv : Solver) (hsv : sv.Sound) {ecc : ℝ} (h1 : 1 < ecc) (N : ℝ)
    (hlo : ecc * sinh (1 - 20 * π) - (1 - 20 * π) ≤ N) (hhi : N ≤ ecc * sinh (1 + 20 * π) - (1 + 20 * π)) :
    n2h sv N ecc = .err .domainError ∨
      ∃ H, n2h sv N ecc = .ok (some H) ∧ ∀ H', ecc * sinh H' - H' = N ↔ H' = H := by
  obtain ⟨H0, hH0⟩ := (keplerH_bijective h1).2 N
  have hm := keplerH_strictMono h1
  have b1 : 1 - 20 * π ≤ H0 := hm.le_iff_le.1 (by rw [hH0]; exact hlo)
  have b2 : H0 ≤ 1 + 20 * π := hm.le_iff_le.1 (by rw [hH0]; exact hhi)
  have hs := hsv (fun H => (kepH H N ecc, d_kepH H ecc)) 1 (1 - 20 * π) (1 + 20 * π) (by linarith [pi_pos])
    (by linarith [pi_pos]) ⟨H0, b1, b2, by
      show ecc * sinh H0 - H0 - N = 0
      have : ecc * sinh H0 - H0 = N := hH0
      linarith⟩
  unfold n2h
  rw [if_neg h1.not_ge]
  dsimp only
  by_cases hit : (sv (fun H => (kepH H N ecc, d_kepH H ecc)) 1 (1 - 20 * π) (1 + 20 * π)).2 = 100
  · left; rw [if_pos hit]
  · right
    rw [if_neg hit]
    obtain ⟨-, -, h⟩ := hs hit
    refine ⟨_, rfl, fun H' => ?_⟩
    set H := (sv (fun H => (kepH H N ecc, d_kepH H ecc)) 1 (1 - 20 * π) (1 + 20 * π)).1
    have hH : keplerH ecc H = N := by
      have : ecc * sinh H - H - N = 0 := h
      show ecc * sinh H - H = N
      linarith
    constructor
    · intro h'; exact hm.injective (by rw [hH]; exact h')
    · rintro rfl; exact hH

/-- **C14**, hyperbolas: outside that range the bracket contains no solution at all. -/
theorem C14_n2h_bracket_misses {ecc : ℝ} (h1 : 1 < ecc) (N : ℝ)
    (h : N < ecc * sinh (1 - 20 * π) - (1 - 20 * π) ∨ ecc * sinh (1 + 20 * π) - (1 + 20 * π) < N) (H : ℝ)
    (hlo : 1 - 20 * π ≤ H) (hhi : H ≤ 1 + 20 * π) : kepH H N ecc ≠ 0 := by
  intro h0
  have hm := (keplerH_strictMono h1).monotone
  have e : keplerH ecc H = N := by
    have : ecc * sinh H - H - N = 0 := h0
    show ecc * sinh H - H = N
    linarith
  have a1 := hm hlo
  have a2 := hm hhi
  rw [e] at a1 a2
  unfold keplerH at a1 a2
  rcases h with h | h <;> linarith

/-- **C14**: `n2f` undoes `f2n` inside the asymptotes, for mean anomalies inside the bracket. -/
theorem C14_n2f_f2n (sv : Solver) (hsv : sv.Sound) {ecc f : ℝ} (h1 : 1 < ecc) (hf1 : -π < f) (hf2 : f < π)
    (hf : -1 / ecc < cos f) : ∃ N, f2n f ecc = some N ∧
      (ecc * sinh (1 - 20 * π) - (1 - 20 * π) ≤ N → N ≤ ecc * sinh (1 + 20 * π) - (1 + 20 * π) →
        n2f sv N ecc = .err .domainError ∨ n2f sv N ecc = .ok (some f)) := by
  obtain ⟨H, hH, hback⟩ := (C12_hyperbola h1).2.1 f hf1 hf2 hf
  refine ⟨ecc * sinh H - H, ?_, fun hlo hhi => ?_⟩
  · unfold f2n h2n
    simp only [if_neg h1.not_ge, hH]
    rfl
  · unfold n2f
    rw [if_neg h1.not_ge]
    rcases C14_n2h sv hsv h1 _ hlo hhi with h | ⟨H', h, hu⟩
    · left; rw [h]; rfl
    · right
      have : H = H' := (hu H).1 rfl
      rw [h, ← this]
      show Res.ok (h2f H ecc) = _
      rw [hback]

open Classical in
/-- A sound root finder exists (a non-computable one that never uses up its iterations). -/
noncomputable def idealSolver : Solver := fun f _ lo hi =>
  if h : ∃ x, lo ≤ x ∧ x ≤ hi ∧ (f x).1 = 0 then (h.choose, 1) else (lo, 1)

theorem idealSolver_sound : idealSolver.Sound := by
  intro f g lo hi _ _ h _
  unfold idealSolver
  rw [dif_pos h]
  exact h.choose_spec

/-- The root finder never uses up its iterations. -/
def Solver.Quick (sv : Solver) : Prop := ∀ f g lo hi, (sv f g lo hi).2 ≠ 100

theorem idealSolver_quick : idealSolver.Quick := by
  intro f g lo hi
  unfold idealSolver
  split <;> simp

/-- **C14**: the conversions raise an error only when the root finder uses up its iterations. -/
theorem C14_error_only_from_solver (sv : Solver) (hq : sv.Quick) (x ecc : ℝ) (e : Exc) :
    m2e sv x ecc ≠ .err e ∧ m2f sv x ecc ≠ .err e ∧ n2h sv x ecc ≠ .err e ∧ n2f sv x ecc ≠ .err e := by
  have h1 : ∃ r, m2e sv x ecc = .ok r := by
    unfold m2e
    split
    · exact ⟨_, rfl⟩
    · exact ⟨_, if_neg (hq _ _ _ _)⟩
  have h2 : ∃ r, n2h sv x ecc = .ok r := by
    unfold n2h
    split
    · exact ⟨_, rfl⟩
    · exact ⟨_, if_neg (hq _ _ _ _)⟩
  obtain ⟨r1, h1⟩ := h1
  obtain ⟨r2, h2⟩ := h2
  refine ⟨by rw [h1]; simp, ?_, by rw [h2]; simp, ?_⟩
  · unfold m2f
    split
    · simp
    · rw [h1]; exact fun h => nomatch h
  · unfold n2f
    split
    · simp
    · rw [h2]; exact fun h => nomatch h

/-- At the pericentre of an ellipse. -/
example : e2m 0 (1 / 2) = some 0 ∧ m2e idealSolver 0 (1 / 2) = .ok (some 0) :=
  ⟨by unfold e2m; norm_num, ((C14_m2e_e2m idealSolver idealSolver_sound (by norm_num) (by norm_num)).1 0 0
    (by linarith [pi_pos]) pi_pos.le (by unfold e2m; norm_num)).resolve_left
      (C14_error_only_from_solver idealSolver idealSolver_quick 0 (1 / 2) .domainError).1⟩

end Kep3
