import Verif.Basic
import Verif.RealOps
import Verif.Kepler.Equations

/-!
# `include/kep3/core_astro/convert_anomalies.hpp`

Exact real arithmetic; `none` is a NaN. The root finder
(`boost::math::tools::newton_raphson_iterate`) is a parameter.
-/

namespace Kep3

open Real

/-- `boost::math::tools::newton_raphson_iterate(f, guess, min, max, digits, max_iter)` with
`max_iter = 100` on entry: the value returned and `max_iter` on exit. `f` gives the function and its
derivative. -/
abbrev Solver := (ℝ → ℝ × ℝ) → ℝ → ℝ → ℝ → ℝ × ℕ

/-- What is assumed about the root finder: if the function has a zero in the bracket, a call that did not
use up its 100 iterations returned a zero in the bracket (exact: the tolerance is not modelled). -/
def Solver.Sound (sv : Solver) : Prop :=
  ∀ f g lo hi, lo ≤ g → g ≤ hi → (∃ x, lo ≤ x ∧ x ≤ hi ∧ (f x).1 = 0) → (sv f g lo hi).2 ≠ 100 →
    lo ≤ (sv f g lo hi).1 ∧ (sv f g lo hi).1 ≤ hi ∧ (f (sv f g lo hi).1).1 = 0

/-- `m2e`, include/kep3/core_astro/convert_anomalies.hpp:29-59. -/
noncomputable def m2e (sv : Solver) (M ecc : ℝ) : Res (Option ℝ) :=
  if 1 ≤ ecc then .ok none
  else
    let sinM := sin M
    let cosM := cos M
    let Mc := atan2 sinM cosM
    let IG := Mc + ecc * sinM + ecc * ecc * sinM * cosM
      + ecc * ecc * ecc * sinM * ((3 / 2 : ℝ) * cosM * cosM - (1 / 2 : ℝ))
    let s := sv (fun E => (kepE E Mc ecc, d_kepE E ecc)) IG (IG - π) (IG + π)
    if s.2 = 100 then .err .domainError else .ok (some s.1)

/-- `e2m`, include/kep3/core_astro/convert_anomalies.hpp:61-67. -/
noncomputable def e2m (E ecc : ℝ) : Option ℝ :=
  if 1 ≤ ecc then none else some (E - ecc * sin E)

/-- `e2f`, include/kep3/core_astro/convert_anomalies.hpp:70-76. -/
noncomputable def e2f (E ecc : ℝ) : Option ℝ :=
  if 1 ≤ ecc then none
  else do
    let q ← div? (1 + ecc) (1 - ecc)
    let s ← sqrt? q
    let t ← tan? (E / 2)
    return 2 * arctan (s * t)

/-- `f2e`, include/kep3/core_astro/convert_anomalies.hpp:79-85. -/
noncomputable def f2e (f ecc : ℝ) : Option ℝ :=
  if 1 ≤ ecc then none
  else do
    let q ← div? (1 - ecc) (1 + ecc)
    let s ← sqrt? q
    let t ← tan? (f / 2)
    return 2 * arctan (s * t)

/-- `m2f`, include/kep3/core_astro/convert_anomalies.hpp:88-94. -/
noncomputable def m2f (sv : Solver) (M ecc : ℝ) : Res (Option ℝ) :=
  if 1 ≤ ecc then .ok none
  else do
    let E ← m2e sv M ecc
    return E.bind fun E => e2f E ecc

/-- `f2m`, include/kep3/core_astro/convert_anomalies.hpp:97-103. -/
noncomputable def f2m (f ecc : ℝ) : Option ℝ :=
  if 1 ≤ ecc then none else (f2e f ecc).bind fun E => e2m E ecc

/-- `zeta2f`, include/kep3/core_astro/convert_anomalies.hpp:106-112 (the argument, called `f` in the
source, is the Gudermannian). -/
noncomputable def zeta2f (z ecc : ℝ) : Option ℝ :=
  if ecc ≤ 1 then none
  else do
    let q ← div? (1 + ecc) (ecc - 1)
    let s ← sqrt? q
    let t ← tan? (z / 2)
    return 2 * arctan (s * t)

/-- `f2zeta`, include/kep3/core_astro/convert_anomalies.hpp:115-121. -/
noncomputable def f2zeta (f ecc : ℝ) : Option ℝ :=
  if ecc ≤ 1 then none
  else do
    let q ← div? (ecc - 1) (1 + ecc)
    let s ← sqrt? q
    let t ← tan? (f / 2)
    return 2 * arctan (s * t)

/-- `n2h`, include/kep3/core_astro/convert_anomalies.hpp:125-145. -/
noncomputable def n2h (sv : Solver) (N ecc : ℝ) : Res (Option ℝ) :=
  if ecc ≤ 1 then .ok none
  else
    let IG := 1
    let s := sv (fun H => (kepH H N ecc, d_kepH H ecc)) IG (IG - 20 * π) (IG + 20 * π)
    if s.2 = 100 then .err .domainError else .ok (some s.1)

/-- `h2n`, include/kep3/core_astro/convert_anomalies.hpp:148-154. -/
noncomputable def h2n (H ecc : ℝ) : Option ℝ :=
  if ecc ≤ 1 then none else some (ecc * sinh H - H)

/-- `h2f`, include/kep3/core_astro/convert_anomalies.hpp:157-163. -/
noncomputable def h2f (H ecc : ℝ) : Option ℝ :=
  if ecc ≤ 1 then none
  else do
    let q ← div? (1 + ecc) (ecc - 1)
    let s ← sqrt? q
    return 2 * arctan (s * tanh (H / 2))

/-- `f2h`, include/kep3/core_astro/convert_anomalies.hpp:166-172. -/
noncomputable def f2h (f ecc : ℝ) : Option ℝ :=
  if ecc ≤ 1 then none
  else do
    let q ← div? (ecc - 1) (1 + ecc)
    let s ← sqrt? q
    let t ← tan? (f / 2)
    let y ← atanh? (s * t)
    return 2 * y

/-- `n2f`, include/kep3/core_astro/convert_anomalies.hpp:175-181. -/
noncomputable def n2f (sv : Solver) (N ecc : ℝ) : Res (Option ℝ) :=
  if ecc ≤ 1 then .ok none
  else do
    let H ← n2h sv N ecc
    return H.bind fun H => h2f H ecc

/-- `f2n`, include/kep3/core_astro/convert_anomalies.hpp:184-190. -/
noncomputable def f2n (f ecc : ℝ) : Option ℝ :=
  if ecc ≤ 1 then none else (f2h f ecc).bind fun H => h2n H ecc

/-! ## Half angles -/

theorem cos_half_ne {x : ℝ} (h1 : -π < x) (h2 : x < π) : cos (x / 2) ≠ 0 :=
  (cos_pos_of_mem_Ioo ⟨by linarith, by linarith⟩).ne'

theorem cos_two_arctan (t : ℝ) : cos (2 * arctan t) = (1 - t ^ 2) / (1 + t ^ 2) := by
  rw [cos_two_mul, cos_sq_arctan]
  have : 1 + t ^ 2 ≠ 0 := by positivity
  field_simp; ring

theorem sin_two_arctan (t : ℝ) : sin (2 * arctan t) = 2 * t / (1 + t ^ 2) := by
  have h : 1 + t ^ 2 ≠ 0 := by positivity
  have hc := (cos_arctan_pos t).ne'
  have : sin (arctan t) = t * cos (arctan t) := by
    have := tan_arctan t
    rw [tan_eq_sin_div_cos, div_eq_iff hc] at this
    exact this
  rw [sin_two_mul, this]
  have h2 := cos_sq_arctan t
  calc 2 * (t * cos (arctan t)) * cos (arctan t) = 2 * t * cos (arctan t) ^ 2 := by ring
    _ = _ := by rw [h2]; field_simp

theorem two_arctan_mem (t : ℝ) : -π < 2 * arctan t ∧ 2 * arctan t < π :=
  ⟨by have := neg_pi_div_two_lt_arctan t; linarith, by have := arctan_lt_pi_div_two t; linarith⟩

theorem two_arctan_tan {x : ℝ} (h1 : -π < x) (h2 : x < π) : 2 * arctan (tan (x / 2)) = x := by
  rw [arctan_tan (by linarith) (by linarith)]; ring

theorem tan_two_arctan_half (t : ℝ) : tan (2 * arctan t / 2) = t := by
  rw [mul_div_cancel_left₀ _ (two_ne_zero), tan_arctan]

/-- `cos x` and `sin x` from `tan (x / 2)`. -/
theorem cos_of_tan_half {x : ℝ} (h1 : -π < x) (h2 : x < π) :
    cos x = (1 - tan (x / 2) ^ 2) / (1 + tan (x / 2) ^ 2) := by
  rw [← cos_two_arctan, two_arctan_tan h1 h2]

theorem sin_of_tan_half {x : ℝ} (h1 : -π < x) (h2 : x < π) :
    sin x = 2 * tan (x / 2) / (1 + tan (x / 2) ^ 2) := by
  rw [← sin_two_arctan, two_arctan_tan h1 h2]

theorem cosh_of_tanh_half (x : ℝ) : cosh x = (1 + tanh (x / 2) ^ 2) / (1 - tanh (x / 2) ^ 2) := by
  have hc := (cosh_pos (x / 2)).ne'
  have h := cosh_sq (x / 2)
  have e : cosh x = cosh (x / 2) ^ 2 + sinh (x / 2) ^ 2 := by
    conv_lhs => rw [show x = 2 * (x / 2) by ring]
    exact cosh_two_mul (x / 2)
  rw [e, tanh_eq_sinh_div_cosh]
  have h1 : cosh (x / 2) ^ 2 - sinh (x / 2) ^ 2 = 1 := by linarith
  rw [div_pow]
  have h2 : 1 - sinh (x / 2) ^ 2 / cosh (x / 2) ^ 2 = 1 / cosh (x / 2) ^ 2 := by
    field_simp; linarith
  rw [h2]
  field_simp

theorem sinh_of_tanh_half (x : ℝ) : sinh x = 2 * tanh (x / 2) / (1 - tanh (x / 2) ^ 2) := by
  have hc := (cosh_pos (x / 2)).ne'
  have h := cosh_sq (x / 2)
  have e : sinh x = 2 * sinh (x / 2) * cosh (x / 2) := by
    conv_lhs => rw [show x = 2 * (x / 2) by ring]
    exact sinh_two_mul (x / 2)
  rw [e, tanh_eq_sinh_div_cosh]
  rw [div_pow]
  have h2 : 1 - sinh (x / 2) ^ 2 / cosh (x / 2) ^ 2 = 1 / cosh (x / 2) ^ 2 := by
    field_simp; linarith
  rw [h2]
  field_simp

/-! ## C12 -/

section ellipse
variable {e : ℝ}

theorem e2f_run {E : ℝ} (h0 : 0 ≤ e) (h1 : e < 1) (hE : cos (E / 2) ≠ 0) :
    e2f E e = some (2 * arctan (√((1 + e) / (1 - e)) * tan (E / 2))) := by
  have : 0 < 1 - e := by linarith
  unfold e2f
  rw [if_neg h1.not_ge, div?_ok this.ne', tan?_ok hE]
  show (sqrt? ((1 + e) / (1 - e))).bind _ = _
  rw [sqrt?_ok (by positivity)]
  rfl

theorem f2e_run {f : ℝ} (h0 : 0 ≤ e) (h1 : e < 1) (hf : cos (f / 2) ≠ 0) :
    f2e f e = some (2 * arctan (√((1 - e) / (1 + e)) * tan (f / 2))) := by
  have : 0 < 1 - e := by linarith
  unfold f2e
  rw [if_neg h1.not_ge, div?_ok (by linarith), tan?_ok hf]
  show (sqrt? ((1 - e) / (1 + e))).bind _ = _
  rw [sqrt?_ok (by positivity)]
  rfl

theorem sqrt_ratio_mul {a b : ℝ} (ha : 0 < a) (hb : 0 < b) : √(a / b) * √(b / a) = 1 := by
  rw [← Real.sqrt_mul (by positivity), div_mul_div_comm, mul_comm b a, div_self (by positivity), sqrt_one]

/-- The classical identities for `f = e2f E`. -/
theorem ellipse_identities {E f : ℝ} (h0 : 0 ≤ e) (h1 : e < 1) (hE1 : -π < E) (hE2 : E < π)
    (hf : f = 2 * arctan (√((1 + e) / (1 - e)) * tan (E / 2))) :
    cos f = (cos E - e) / (1 - e * cos E) ∧ sin f = √(1 - e ^ 2) * sin E / (1 - e * cos E) := by
  have p1 : 0 < 1 - e := by linarith
  have p2 : 0 < 1 + e := by linarith
  have k2 : √((1 + e) / (1 - e)) ^ 2 = (1 + e) / (1 - e) := Real.sq_sqrt (by positivity)
  have hk : √((1 + e) / (1 - e)) = √(1 - e ^ 2) / (1 - e) := by
    rw [show (1 + e) / (1 - e) = (1 - e ^ 2) / (1 - e) ^ 2 by field_simp; ring,
      Real.sqrt_div' _ (by positivity), Real.sqrt_sq p1.le]
  have hc := cos_of_tan_half hE1 hE2
  have hs := sin_of_tan_half hE1 hE2
  set t := tan (E / 2)
  have ht : (0 : ℝ) < 1 + t ^ 2 := by positivity
  have hd : 1 - e * cos E = ((1 - e) + (1 + e) * t ^ 2) / (1 + t ^ 2) := by
    rw [hc]; field_simp; ring
  have hd2 : 0 < (1 - e) + (1 + e) * t ^ 2 := by positivity
  constructor
  · rw [hf, cos_two_arctan, hd, hc, mul_pow, k2]
    field_simp
    ring
  · rw [hf, sin_two_arctan, hd, hs, mul_pow, k2, hk]
    field_simp

/-- **C12**, ellipses: `e2f` and `f2e` are inverse bijections of (-π, π), and the true anomaly satisfies the
classical identities. -/
theorem C12_ellipse (h0 : 0 ≤ e) (h1 : e < 1) :
    (∀ E, -π < E → E < π → ∃ f, e2f E e = some f ∧ -π < f ∧ f < π ∧ f2e f e = some E ∧
      cos f = (cos E - e) / (1 - e * cos E) ∧ sin f = √(1 - e ^ 2) * sin E / (1 - e * cos E)) ∧
    (∀ f, -π < f → f < π → ∃ E, f2e f e = some E ∧ -π < E ∧ E < π ∧ e2f E e = some f) := by
  have p1 : 0 < 1 - e := by linarith
  have p2 : 0 < 1 + e := by linarith
  constructor
  · intro E hE1 hE2
    have hm := two_arctan_mem (√((1 + e) / (1 - e)) * tan (E / 2))
    refine ⟨_, e2f_run h0 h1 (cos_half_ne hE1 hE2), hm.1, hm.2, ?_, ellipse_identities h0 h1 hE1 hE2 rfl⟩
    rw [f2e_run h0 h1 (cos_half_ne hm.1 hm.2), tan_two_arctan_half, ← mul_assoc, sqrt_ratio_mul p1 p2, one_mul,
      two_arctan_tan hE1 hE2]
  · intro f hf1 hf2
    have hm := two_arctan_mem (√((1 - e) / (1 + e)) * tan (f / 2))
    refine ⟨_, f2e_run h0 h1 (cos_half_ne hf1 hf2), hm.1, hm.2, ?_⟩
    rw [e2f_run h0 h1 (cos_half_ne hm.1 hm.2), tan_two_arctan_half, ← mul_assoc, sqrt_ratio_mul p2 p1, one_mul,
      two_arctan_tan hf1 hf2]

end ellipse

section hyperbola
variable {e : ℝ}

theorem zeta2f_run {z : ℝ} (h1 : 1 < e) (hz : cos (z / 2) ≠ 0) :
    zeta2f z e = some (2 * arctan (√((1 + e) / (e - 1)) * tan (z / 2))) := by
  have : 0 < e - 1 := by linarith
  unfold zeta2f
  rw [if_neg h1.not_ge, div?_ok this.ne', tan?_ok hz]
  show (sqrt? ((1 + e) / (e - 1))).bind _ = _
  rw [sqrt?_ok (by positivity)]
  rfl

theorem f2zeta_run {f : ℝ} (h1 : 1 < e) (hf : cos (f / 2) ≠ 0) :
    f2zeta f e = some (2 * arctan (√((e - 1) / (1 + e)) * tan (f / 2))) := by
  have : 0 < e - 1 := by linarith
  unfold f2zeta
  rw [if_neg h1.not_ge, div?_ok (by linarith), tan?_ok hf]
  show (sqrt? ((e - 1) / (1 + e))).bind _ = _
  rw [sqrt?_ok (by positivity)]
  rfl

theorem h2f_run (H : ℝ) (h1 : 1 < e) :
    h2f H e = some (2 * arctan (√((1 + e) / (e - 1)) * tanh (H / 2))) := by
  have : 0 < e - 1 := by linarith
  unfold h2f
  rw [if_neg h1.not_ge, div?_ok this.ne']
  show (sqrt? ((1 + e) / (e - 1))).bind _ = _
  rw [sqrt?_ok (by positivity)]
  rfl

theorem f2h_run {f : ℝ} (h1 : 1 < e) (hf : cos (f / 2) ≠ 0) :
    f2h f e = (atanh? (√((e - 1) / (1 + e)) * tan (f / 2))).map (2 * ·) := by
  have : 0 < e - 1 := by linarith
  unfold f2h
  rw [if_neg h1.not_ge, div?_ok (by linarith), tan?_ok hf]
  show (sqrt? ((e - 1) / (1 + e))).bind _ = _
  rw [sqrt?_ok (by positivity)]
  show (atanh? _).bind _ = _
  rw [Option.map_eq_bind]
  rfl

/-- Inside the asymptotes: `cos f > -1 / e`. -/
theorem inside_iff {f : ℝ} (h1 : 1 < e) (hf1 : -π < f) (hf2 : f < π) :
    (-1 < √((e - 1) / (1 + e)) * tan (f / 2) ∧ √((e - 1) / (1 + e)) * tan (f / 2) < 1) ↔ -1 / e < cos f := by
  have p1 : 0 < e - 1 := by linarith
  have p2 : 0 < 1 + e := by linarith
  have k2 : √((e - 1) / (1 + e)) ^ 2 = (e - 1) / (1 + e) := Real.sq_sqrt (by positivity)
  rw [← abs_lt, ← sq_lt_one_iff_abs_lt_one, mul_pow, k2, cos_of_tan_half hf1 hf2]
  set t := tan (f / 2)
  have ht : (0 : ℝ) < 1 + t ^ 2 := by positivity
  rw [div_mul_eq_mul_div, div_lt_one p2, div_lt_div_iff₀ (by linarith) ht]
  constructor <;> intro h <;> nlinarith

/-- **C12**, hyperbolas, hyperbolic anomaly: `h2f` and `f2h` are inverse bijections between the real line and the
true anomalies inside the asymptotes (`cos f > -1/e`), with the classical identities; beyond the asymptotes `f2h`
returns no number. -/
theorem C12_hyperbola (h1 : 1 < e) :
    (∀ H, ∃ f, h2f H e = some f ∧ -π < f ∧ f < π ∧ -1 / e < cos f ∧ f2h f e = some H ∧
      cos f = (e - cosh H) / (e * cosh H - 1) ∧ sin f = √(e ^ 2 - 1) * sinh H / (e * cosh H - 1)) ∧
    (∀ f, -π < f → f < π → -1 / e < cos f → ∃ H, f2h f e = some H ∧ h2f H e = some f) ∧
    (∀ f, -π < f → f < π → cos f ≤ -1 / e → f2h f e = none) := by
  have p1 : 0 < e - 1 := by linarith
  have p2 : 0 < 1 + e := by linarith
  refine ⟨?_, ?_, ?_⟩
  · intro H
    set w := tanh (H / 2) with hw
    have hw1 : -1 < w ∧ w < 1 := ⟨Real.neg_one_lt_tanh _, Real.tanh_lt_one _⟩
    have hw2 : w ^ 2 < 1 := by nlinarith
    have hm := two_arctan_mem (√((1 + e) / (e - 1)) * w)
    have hback : √((e - 1) / (1 + e)) * tan (2 * arctan (√((1 + e) / (e - 1)) * w) / 2) = w := by
      rw [tan_two_arctan_half, ← mul_assoc, sqrt_ratio_mul p1 p2, one_mul]
    have k2 : √((1 + e) / (e - 1)) ^ 2 = (1 + e) / (e - 1) := Real.sq_sqrt (by positivity)
    have hk : √((1 + e) / (e - 1)) = √(e ^ 2 - 1) / (e - 1) := by
      rw [show (1 + e) / (e - 1) = (e ^ 2 - 1) / (e - 1) ^ 2 by field_simp; ring,
        Real.sqrt_div' _ (by positivity), Real.sqrt_sq p1.le]
    have hq : 0 < 1 - w ^ 2 := by linarith
    have hd : e * cosh H - 1 = ((e - 1) + (1 + e) * w ^ 2) / (1 - w ^ 2) := by
      rw [cosh_of_tanh_half H, ← hw]; field_simp; ring
    have hd2 : 0 < (e - 1) + (1 + e) * w ^ 2 := by positivity
    refine ⟨_, h2f_run H h1, hm.1, hm.2, ?_, ?_, ?_, ?_⟩
    · rw [← inside_iff h1 hm.1 hm.2, hback]; exact hw1
    · rw [f2h_run h1 (cos_half_ne hm.1 hm.2), hback, atanh?_ok hw1, hw, artanh_tanh]
      show some (2 * (H / 2)) = _
      rw [mul_div_cancel₀ _ (two_ne_zero)]
    · rw [cos_two_arctan, hd, cosh_of_tanh_half H, ← hw, mul_pow, k2]
      field_simp
      ring
    · rw [sin_two_arctan, hd, sinh_of_tanh_half H, ← hw, mul_pow, k2, hk]
      field_simp
  · intro f hf1 hf2 hf
    have hin := (inside_iff h1 hf1 hf2).2 hf
    refine ⟨2 * artanh (√((e - 1) / (1 + e)) * tan (f / 2)), ?_, ?_⟩
    · rw [f2h_run h1 (cos_half_ne hf1 hf2), atanh?_ok hin]; rfl
    · rw [h2f_run _ h1, mul_div_cancel_left₀ _ (two_ne_zero), tanh_artanh hin, ← mul_assoc, sqrt_ratio_mul p2 p1,
        one_mul, two_arctan_tan hf1 hf2]
  · intro f hf1 hf2 hf
    rw [f2h_run h1 (cos_half_ne hf1 hf2)]
    unfold atanh?
    rw [if_neg (fun h => ((inside_iff h1 hf1 hf2).1 h).not_ge hf)]
    rfl

/-- **C12**, hyperbolas, Gudermannian: `zeta2f` and `f2zeta` are inverse bijections of (-π, π), and the
Gudermannians in (-π/2, π/2) correspond to the true anomalies inside the asymptotes. -/
theorem C12_gudermannian (h1 : 1 < e) :
    (∀ z, -π < z → z < π → ∃ f, zeta2f z e = some f ∧ -π < f ∧ f < π ∧ f2zeta f e = some z ∧
      cos f = (e * cos z - 1) / (e - cos z) ∧ (0 < cos z ↔ -1 / e < cos f)) ∧
    (∀ f, -π < f → f < π → ∃ z, f2zeta f e = some z ∧ -π < z ∧ z < π ∧ zeta2f z e = some f) := by
  have p1 : 0 < e - 1 := by linarith
  have p2 : 0 < 1 + e := by linarith
  constructor
  · intro z hz1 hz2
    have hm := two_arctan_mem (√((1 + e) / (e - 1)) * tan (z / 2))
    have k2 : √((1 + e) / (e - 1)) ^ 2 = (1 + e) / (e - 1) := Real.sq_sqrt (by positivity)
    have hcos : cos (2 * arctan (√((1 + e) / (e - 1)) * tan (z / 2))) = (e * cos z - 1) / (e - cos z) := by
      have hc := cos_of_tan_half hz1 hz2
      set t := tan (z / 2)
      have ht : (0 : ℝ) < 1 + t ^ 2 := by positivity
      have hd : e - cos z = ((e - 1) + (1 + e) * t ^ 2) / (1 + t ^ 2) := by rw [hc]; field_simp; ring
      have hd2 : 0 < (e - 1) + (1 + e) * t ^ 2 := by positivity
      rw [cos_two_arctan, hd, hc, mul_pow, k2]
      field_simp
      ring
    refine ⟨_, zeta2f_run h1 (cos_half_ne hz1 hz2), hm.1, hm.2, ?_, hcos, ?_⟩
    · rw [f2zeta_run h1 (cos_half_ne hm.1 hm.2), tan_two_arctan_half, ← mul_assoc, sqrt_ratio_mul p1 p2, one_mul,
        two_arctan_tan hz1 hz2]
    · rw [hcos, div_lt_div_iff₀ (by linarith) (by linarith [cos_le_one z])]
      have h2 : 0 < e ^ 2 - 1 := by nlinarith
      have h3 : (e * cos z - 1) * e - -1 * (e - cos z) = (e ^ 2 - 1) * cos z := by ring
      rw [← mul_pos_iff_of_pos_left h2, ← h3, sub_pos]
  · intro f hf1 hf2
    have hm := two_arctan_mem (√((e - 1) / (1 + e)) * tan (f / 2))
    refine ⟨_, f2zeta_run h1 (cos_half_ne hf1 hf2), hm.1, hm.2, ?_⟩
    rw [zeta2f_run h1 (cos_half_ne hm.1 hm.2), tan_two_arctan_half, ← mul_assoc, sqrt_ratio_mul p2 p1, one_mul,
      two_arctan_tan hf1 hf2]

end hyperbola

/-- A quarter turn on an ellipse of eccentricity 3/5: `cos f = -3/5`. -/
example : ∃ f, e2f (π / 2) (3 / 5) = some f ∧ cos f = -3 / 5 := by
  obtain ⟨f, h, -, -, -, hc, -⟩ := (C12_ellipse (e := 3 / 5) (by norm_num) (by norm_num)).1 (π / 2)
    (by linarith [pi_pos]) (by linarith [pi_pos])
  exact ⟨f, h, by rw [hc]; norm_num⟩

/-- On a hyperbola of eccentricity 2, three quarters of a half turn is beyond the asymptote. -/
example : f2h (3 * π / 4) 2 = none := by
  refine (C12_hyperbola (e := 2) (by norm_num)).2.2 _ (by linarith [pi_pos]) (by linarith [pi_pos]) ?_
  have h1 : cos (3 * π / 4) = -(√2 / 2) := by
    rw [show 3 * π / 4 = π - π / 4 by ring, cos_pi_sub, cos_pi_div_four]
  rw [h1]
  have : (1 : ℝ) ≤ √2 := Real.one_le_sqrt.2 (by norm_num)
  linarith

/-! ## C13 -/

/-- **C13**, elliptic conversions, for non-negative eccentricity (and, for `e2f` and `f2e`, away from the odd
multiples of π, where the tangent is not defined): they return a number exactly for `ecc < 1`. -/
theorem C13_elliptic (sv : Solver) {ecc : ℝ} (h0 : 0 ≤ ecc) (x : ℝ) :
    (e2m x ecc = none ↔ 1 ≤ ecc) ∧ (m2e sv x ecc = .ok none ↔ 1 ≤ ecc) ∧
    (cos (x / 2) ≠ 0 → (e2f x ecc = none ↔ 1 ≤ ecc) ∧ (f2e x ecc = none ↔ 1 ≤ ecc) ∧
      (f2m x ecc = none ↔ 1 ≤ ecc)) ∧
    (1 ≤ ecc → m2f sv x ecc = .ok none) := by
  refine ⟨?_, ?_, ?_, ?_⟩
  · unfold e2m; split <;> simp_all
  · unfold m2e
    split
    · simp_all
    · dsimp only; split <;> simp_all
  · intro hx
    by_cases h : 1 ≤ ecc
    · simp [e2f, f2e, f2m, h]
    · have h1 : ecc < 1 := not_le.1 h
      rw [e2f_run h0 h1 hx, f2e_run h0 h1 hx]
      refine ⟨by simp [h], by simp [h], ?_⟩
      unfold f2m e2m
      rw [if_neg h, f2e_run h0 h1 hx]
      simp [h]
  · intro h; unfold m2f; rw [if_pos h]

/-- **C13**, hyperbolic conversions: they return no number for `ecc ≤ 1`; for `ecc > 1` those from the hyperbolic
anomaly return a number, `n2h` returns one unless it throws, and those from the true anomaly return one exactly
inside the asymptotes. -/
theorem C13_hyperbolic (sv : Solver) (ecc x : ℝ) :
    (h2n x ecc = none ↔ ecc ≤ 1) ∧ (h2f x ecc = none ↔ ecc ≤ 1) ∧ (n2h sv x ecc = .ok none ↔ ecc ≤ 1) ∧
    (n2f sv x ecc = .ok none ↔ ecc ≤ 1) ∧
    (-π < x → x < π → (zeta2f x ecc = none ↔ ecc ≤ 1) ∧ (f2zeta x ecc = none ↔ ecc ≤ 1) ∧
      (f2h x ecc = none ↔ ecc ≤ 1 ∨ cos x ≤ -1 / ecc) ∧ (f2n x ecc = none ↔ ecc ≤ 1 ∨ cos x ≤ -1 / ecc)) := by
  have hh2f : h2f x ecc = none ↔ ecc ≤ 1 := by
    by_cases h : ecc ≤ 1
    · simp [h2f, h]
    · rw [h2f_run x (not_le.1 h)]; simp [h]
  have hn2h : n2h sv x ecc = .ok none ↔ ecc ≤ 1 := by
    unfold n2h
    split
    · simp_all
    · dsimp only; split <;> simp_all
  refine ⟨?_, hh2f, hn2h, ?_, ?_⟩
  · unfold h2n; split <;> simp_all
  · unfold n2f
    by_cases h : ecc ≤ 1
    · simp [h]
    · rw [if_neg h]
      refine iff_of_false ?_ h
      unfold n2h
      rw [if_neg h]
      dsimp only
      split
      · simp [Bind.bind, Res.bind]
      · intro hh
        have : (h2f _ ecc) = none := Res.ok.inj hh
        rw [h2f_run _ (not_le.1 h)] at this
        exact absurd this (by simp)
  · intro h1 h2
    by_cases h : ecc ≤ 1
    · simp [zeta2f, f2zeta, f2h, f2n, h]
    · have he := not_le.1 h
      have hx := cos_half_ne h1 h2
      have hf : f2h x ecc = none ↔ ecc ≤ 1 ∨ cos x ≤ -1 / ecc := by
        constructor
        · intro hh
          right
          by_contra hc
          obtain ⟨H, hH, -⟩ := (C12_hyperbola he).2.1 x h1 h2 (not_le.1 hc)
          rw [hH] at hh
          exact absurd hh (by simp)
        · rintro (hh | hh)
          · exact absurd hh h
          · exact (C12_hyperbola he).2.2 x h1 h2 hh
      refine ⟨by rw [zeta2f_run he hx]; simp [h], by rw [f2zeta_run he hx]; simp [h], hf, ?_⟩
      rw [← hf]
      unfold f2n h2n
      rw [if_neg h]
      cases f2h x ecc <;> simp [h]

end Kep3
