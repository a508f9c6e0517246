import Verif.Planet.JplDouble
import Verif.Planet.Ellipse93
import Verif.Planet.Props34
import Verif.Kepler.Props93

/-!
# C93: the low-precision planets in double precision
-/

namespace Kep3
open Real V3 Fl
namespace JplLp

/-- What the bounds need to know of the tables. -/
structure Sizes (b d : Arr6) (T : ℝ) : Prop where
  a : |b 0| + 2.01 * |d 0| ≤ 1.01 * (b 0 + d 0 * T)
  a0 : 0 < b 0 + d 0 * T
  e : |b 1| + 2.01 * |d 1| ≤ 0.24
  e0 : 0.001 ≤ b 1 + d 1 * T
  i : |b 2| + 2.01 * |d 2| ≤ 250
  Om : |b 5| + 2.01 * |d 5| ≤ 250
  om : |b 4| + 2.01 * |d 4| + (|b 5| + 2.01 * |d 5|) ≤ 250
  M : |b 3| + 2.01 * |d 3| + (|b 4| + 2.01 * |d 4|) ≤ 301000

theorem sizes {s : List Char} {p : JplLp} (h : ofName s = .ok p) {T : ℝ} (h1 : -2.01 ≤ T) (h2 : T ≤ 0.5) : Sizes p.elements0 p.elementsDot T := by
  obtain ⟨n, el, r, f, mu, hd, e1, e2, -⟩ := ofName_ok h
  rw [e1, e2]
  refine data_cases (P := fun d => Sizes d.1.1 d.1.2 T) ?_ ?_ ?_ ?_ ?_ ?_ ?_ ?_ hd
  all_goals
    simp only [mercury, venus, earthMoon, mars, jupiter, saturn, uranus, neptune]
    constructor <;> simp [abs_of_pos, abs_of_neg] <;> norm_num [abs_of_pos, abs_of_neg] <;> linarith

/-- The elements at a date. -/
theorem updatedD_err {A : LibmT} (hA : A.Double) (p : JplLp) {t T : ℝ} (hT : T * 36525 = t - 1 / 2) (hT1 : |T| ≤ 2.01) (i : Fin 6) :
    |updatedD A p t i - (p.elements0 i + p.elementsDot i * T)| ≤ 6 * u * (|p.elements0 i| + 2.01 * |p.elementsDot i|) ∧
    |updatedD A p t i| ≤ 1.01 * (|p.elements0 i| + 2.01 * |p.elementsDot i|) ∧ Rep (updatedD A p t i) := by
  have hu := u_pos
  have hus := u_small
  unfold updatedD
  dsimp only
  rw [hA.libm.arith.rd]
  refine ⟨?_, ?_, rep_rn _⟩
  all_goals
    generalize p.elements0 i = b
    generalize p.elementsDot i = d
    have r0 : Rel 0 (t - 1 / 2) (t - 1 / 2) := by unfold Rel; simp
    have r1 := ((r0.rn (by norm_num)).const (1 / 36525)).rn (by norm_num)
    rw [show 1 / 36525 * rn (t - 1 / 2) = rn (t - 1 / 2) / 36525 by ring, show 1 / 36525 * (t - 1 / 2) = T by rw [← hT]; ring] at r1
    have d0 : Rel 0 d d := by unfold Rel; simp
    have b0 : Rel 0 b b := by unfold Rel; simp
    have r2 := ((d0.rn (by norm_num)).mul r1 (by norm_num) (by norm_num) (by norm_num)).rn (by norm_num)
    have r3 := b0.rn (by norm_num)
    unfold Rel at r2 r3
    have hdT : |d * T| ≤ 2.01 * |d| := by rw [abs_mul, mul_comm]; exact mul_le_mul_of_nonneg_right hT1 (abs_nonneg _)
    generalize rn (rn d * rn (rn (t - 1 / 2) / 36525)) = x at *
    generalize rn b = y at *
    have e := rn_err' (y + x)
    have h1 := abs_add_le (y - b) (x - d * T)
    rw [show y - b + (x - d * T) = (y + x) - (b + d * T) by ring] at h1
    have h2 := abs_add_le b (d * T)
    have h3 := abs_add_le ((y + x) - (b + d * T)) (b + d * T)
    rw [sub_add_cancel] at h3
    have k1 : u * |d * T| ≤ u * (2.01 * |d|) := mul_le_mul_of_nonneg_left hdT hu.le
    have k2 : 0 ≤ u * |b| := by positivity
    have k3 : 0 ≤ u * |d| := by positivity
    have k4 : u * |b| ≤ 0.0001 * |b| := mul_le_mul_of_nonneg_right (by linarith) (abs_nonneg _)
    have k5 : u * |d| ≤ 0.0001 * |d| := mul_le_mul_of_nonneg_right (by linarith) (abs_nonneg _)
    have h4 : |y + x| ≤ 1.001 * (|b| + 2.01 * |d|) := by linarith
    have h5 := mul_le_mul_of_nonneg_left h4 hu.le
    have h6 := abs_add_le (rn (y + x) - (y + x)) ((y + x) - (b + d * T))
    rw [sub_add_sub_cancel] at h6
    have h7 := abs_add_le (rn (y + x) - (y + x)) (y + x)
    rw [sub_add_cancel] at h7
    linarith

/-- Degrees to radians. -/
theorem deg_err {A : LibmT} (hA : A.Double) {x x' S : ℝ} (h : |x' - x| ≤ 7.2 * u * S) (hS : |x| ≤ S) : |A.rd (x' * deg2radD A) - x * (π / 180)| ≤ 0.21 * u * S := by
  have hu := u_pos
  have hus := u_small
  have S0 := (abs_nonneg _).trans hS
  have hpi := pi_lt_d4
  have hp3 := pi_pos
  unfold deg2radD
  rw [hA.libm.arith.rd]
  have r0 : Rel 0 π π := by unfold Rel; simp
  have r1 := ((r0.rn (by norm_num)).const (1 / 180)).rn (by norm_num)
  rw [show 1 / 180 * rn π = rn π / 180 by ring, show 1 / 180 * π = π / 180 by ring] at r1
  unfold Rel at r1
  have D0 : |π / 180| ≤ 0.017455 := by rw [abs_of_pos (by positivity)]; linarith
  generalize π / 180 = D at *
  generalize rn (rn π / 180) = D' at *
  have D1 : |D' - D| ≤ 0.03562 * u := r1.trans (by nlinarith)
  have D2 : |D'| ≤ 0.01746 := by
    have := abs_add_le (D' - D) D
    rw [sub_add_cancel] at this
    linarith
  have e := rn_err' (x' * D')
  have h1 : |x' * D' - x * D| ≤ 0.162 * u * S := by
    rw [show x' * D' - x * D = (x' - x) * D' + x * (D' - D) by ring]
    refine (abs_add_le _ _).trans ?_
    rw [abs_mul, abs_mul]
    have f1 := mul_le_mul h D2 (abs_nonneg _) (by positivity)
    have f2 := mul_le_mul hS D1 (abs_nonneg _) S0
    have : 0 ≤ u * S := by positivity
    linarith
  have h2 : |x * D| ≤ 0.017455 * S := by
    rw [abs_mul, mul_comm]; exact mul_le_mul D0 hS (abs_nonneg _) (by norm_num)
  have h3 := abs_add_le (x' * D' - x * D) (x * D)
  rw [sub_add_cancel] at h3
  have uS : u * S ≤ 0.0001 * S := mul_le_mul_of_nonneg_right (by linarith) S0
  have h4 := mul_le_mul_of_nonneg_left (show |x' * D'| ≤ 0.0176 * S by linarith) hu.le
  have h5 := abs_add_le (rn (x' * D') - x' * D') (x' * D' - x * D)
  rw [sub_add_sub_cancel] at h5
  have : 0 ≤ u * S := by positivity
  linarith

/-- A difference of angles. -/
theorem diff_err {A : LibmT} (hA : A.Double) {x y x' y' S R : ℝ} (hx : |x' - x| ≤ 6 * u * S) (hy : |y' - y| ≤ 6 * u * R) (bx : |x'| ≤ 1.01 * S) (bY : |y'| ≤ 1.01 * R) :
    |A.rd (x' - y') - (x - y)| ≤ 7.2 * u * (S + R) := by
  have hu := u_pos
  rw [hA.libm.arith.rd]
  have e := rn_err' (x' - y')
  have h1 := (abs_sub x' y')
  have h2 := mul_le_mul_of_nonneg_left (h1.trans (add_le_add bx bY)) hu.le
  have h3 := abs_add_le (x' - x) (-(y' - y))
  rw [abs_neg, show x' - x + -(y' - y) = x' - y' - (x - y) by ring] at h3
  have h4 := abs_add_le (rn (x' - y') - (x' - y')) (x' - y' - (x - y))
  rw [sub_add_sub_cancel] at h4
  have : 0 ≤ u * S := mul_nonneg hu.le (by linarith [(abs_nonneg _).trans bx])
  have : 0 ≤ u * R := mul_nonneg hu.le (by linarith [(abs_nonneg _).trans bY])
  linarith

/-- The semi-major axis and the mean velocity. -/
theorem axis_err {A : LibmT} (hA : A.Double) {x x' S : ℝ} (hx0 : 0 < x) (h : |x' - x| ≤ 6 * u * S) (hS : S ≤ 1.01 * x) :
    0 < A.rd (x' * A.rd AU) ∧ |A.rd (x' * A.rd AU) - x * AU| ≤ 40 * u * (x * AU) ∧ 0 < A.rd MU_SUN ∧
      |√(A.rd MU_SUN / A.rd (x' * A.rd AU)) - √(MU_SUN / (x * AU))| ≤ 40 * u * √(MU_SUN / (x * AU)) := by
  have hu := u_pos
  have hus := u_small
  rw [hA.libm.arith.rd]
  have hxA := mul_pos hx0 AU_pos
  have w1 : Within (6.1 * u) x x' := by
    unfold Within; rw [abs_of_pos hx0]
    have := mul_le_mul_of_nonneg_left hS hu.le
    nlinarith [mul_pos hu hx0]
  have w0 : ∀ y, Within 0 y y := fun y => by unfold Within; simp
  have w2 := (w0 AU).rn (by norm_num)
  have w3 := ((w1.mul w2 (by linarith)).rn (by linarith)).mono (show _ ≤ 8.2 * u by linarith)
  have w4 := (w0 MU_SUN).rn (by norm_num)
  have w5 := w3.inv (by linarith) (by linarith) hxA
  have w6 := w4.mul w5 (by linarith)
  rw [← div_eq_mul_inv, ← div_eq_mul_inv] at w6
  have w7 := (w6.sqrt (by linarith) (by linarith) (div_pos MU_SUN_pos hxA)).mono (show _ ≤ 40 * u by linarith)
  refine ⟨w3.pos (by linarith) hxA, ?_, w4.pos (by linarith) MU_SUN_pos, ?_⟩
  · have := w3.mono (show 8.2 * u ≤ 40 * u by linarith)
    unfold Within at this
    rwa [abs_of_pos hxA] at this
  · unfold Within at w7
    rwa [abs_of_nonneg (sqrt_nonneg _)] at w7

/-- The root finder answers with a double at which Kepler's equation, as evaluated by the code, is met up to `tol`. -/
def _root_.Kep3.SolverD.Settles (sv : SolverD) (A : LibmT) (tol : ℝ) : Prop :=
  ∀ M ecc E, 0 ≤ ecc → ecc < 1 → m2eD A sv M ecc = .ok (some E) → Rep E ∧ |kepED A E (A.atan2 (A.sin M) (A.cos M)) ecc| ≤ tol

/-- The true anomaly, given the eccentricity and the mean anomaly up to errors. -/
theorem m2fD_err {A : LibmT} (hA : A.Double) (hat : ∀ y x, |A.atan2 y x - atan2 y x| ≤ 4 * u * |atan2 y x|) {sv : SolverD} {tol : ℝ} (ht : tol ≤ 1 / 2 ^ 20)
    (hq : sv.Quick) (hsv : sv.Settles A tol) {e e' M M' E : ℝ} (he' : 0 ≤ e') (he1' : e' ≤ 1 / 4) (dM : |M' - M| ≤ 63300 * u) (de : |e' - e| ≤ 2 * u)
    (hE : E - e * sin E = M) :
    ∃ E' f f', m2fD A sv M' e' = .ok (some f') ∧ 0 ≤ tol ∧ |f' - f| ≤ 48 * u ∧
      cos f = (cos E' - e') / (1 - e' * cos E') ∧ sin f = √(1 - e' ^ 2) * sin E' / (1 - e' * cos E') ∧
      |cos E' - cos E| ≤ 1.334 * tol + 84500 * u ∧ |sin E' - sin E| ≤ 1.334 * tol + 84500 * u := by
  have hu := u_pos
  have hus := u_small
  have h1 : e' < 1 := by linarith
  obtain ⟨F, hF, -⟩ := kepler_root he' h1 M'
  unfold m2fD
  rw [if_neg h1.not_ge]
  obtain ⟨E', hr, k, hk⟩ := C93_m2e hA hat hq he' h1 (ht.trans (by norm_num)) hF (fun E' h => (hsv M' e' E' he' h1 h).2)
  obtain ⟨hrep, hres⟩ := hsv M' e' E' he' h1 hr
  have t0 : 0 ≤ tol := (abs_nonneg _).trans hres
  obtain ⟨⟨f, f', hf, hf', hd, -, -⟩, -⟩ := C90_ellipse hA hrep he' h1
  obtain ⟨hc, hs⟩ := e2f_identities he' h1 (cos_half_rep hrep) hf
  have hfpi : |f| ≤ 3.15 := by
    rw [e2f_run he' h1 (cos_half_rep hrep)] at hf
    have hf := (Option.some.inj hf).symm
    have a1 := neg_pi_div_two_lt_arctan (√((1 + e') / (1 - e')) * tan (E' / 2))
    have a2 := arctan_lt_pi_div_two (√((1 + e') / (1 - e')) * tan (E' / 2))
    have := pi_lt_d2
    rw [hf, abs_le]; constructor <;> linarith
  have hd' : |f' - f| ≤ 48 * u := hd.trans (by nlinarith)
  -- the exact anomalies
  have st : |F - e' * sin F - (E - e' * sin E)| ≤ 63302 * u := by
    rw [hF, show M' - (E - e' * sin E) = (M' - M) + (e' - e) * sin E by rw [← hE]; ring]
    refine (abs_add_le _ _).trans ?_
    rw [abs_mul]
    have := mul_le_mul de (abs_sin_le_one E) (abs_nonneg _) (by positivity)
    linarith
  have st' := kepler_stable he' h1 st
  have dE : |E' - (E + 2 * π * k)| ≤ 1.334 * tol + 84500 * u := by
    have t1 := abs_add_le (E' - F - 2 * π * k) (F - E)
    rw [show E' - F - 2 * π * k + (F - E) = E' - (E + 2 * π * k) by ring] at t1
    have q1 : (tol + 64 * (1 / 2 ^ 53)) / (1 - e') ≤ 1.334 * tol + 86 * u := by
      rw [div_le_iff₀ (by linarith)]
      change tol + 64 * u ≤ _
      nlinarith
    have q2 : 63302 * u / (1 - e') ≤ 84410 * u := by
      rw [div_le_iff₀ (by linarith)]
      nlinarith
    linarith
  refine ⟨E', f, f', by rw [hr]; exact congrArg Res.ok hf', t0, hd', hc, hs, ?_, ?_⟩
  · have := (Real.abs_cos_sub_cos_le E' (E + 2 * π * k)).trans dE
    rwa [show E + 2 * π * k = E + k * (2 * π) by ring, cos_add_int_mul_two_pi] at this
  · have := (Real.abs_sin_sub_sin_le E' (E + 2 * π * k)).trans dE
    rwa [show E + 2 * π * k = E + k * (2 * π) by ring, sin_add_int_mul_two_pi] at this

/-- The state, given elements up to errors. -/
theorem stateD_err {A : LibmT} (hA : A.Double) {B : Blas} (hB : B.Ok) {a e i Om om E mu a' e' i' Om' om' E' mu' f f' ε : ℝ} (ha : 0 < a) (hmu : 0 < mu) (ha' : 0 < a')
    (hmu' : 0 < mu') (he : 0 ≤ e) (he1 : e ≤ 1 / 4) (he' : 0 ≤ e') (he1' : e' ≤ 1 / 4) (hε : ε ≤ 1 / 1000) (da : |a' - a| ≤ 60 * u * a) (de : |e' - e| ≤ 60 * u)
    (dm : |√(mu' / a') - √(mu / a)| ≤ 60 * u * √(mu / a)) (di : |i' - i| ≤ 60 * u) (dO : |Om' - Om| ≤ 60 * u) (dom : |om' - om| ≤ 60 * u)
    (dc : |cos E' - cos E| ≤ ε) (ds : |sin E' - sin E| ≤ ε) (hc : cos f = (cos E' - e') / (1 - e' * cos E')) (hs : sin f = √(1 - e' ^ 2) * sin E' / (1 - e' * cos E'))
    (hf : |f' - f| ≤ 48 * u) :
    ∃ y, par2icD A.toLibm B ⟨a', e', i', Om', om', f'⟩ mu' = .ok (some y) ∧
      norm (y.r - (eccState a e i Om om E mu).r) ≤ (3.4 * ε + 3000 * u) * norm (eccState a e i Om om E mu).r ∧
      norm (y.v - (eccState a e i Om om E mu).v) ≤ (3.4 * ε + 3000 * u) * norm (eccState a e i Om om E mu).v := by
  have hu := u_pos
  have hus := u_small
  have ε0 := (abs_nonneg _).trans dc
  obtain ⟨z, y, hz, hy, c1, c2⟩ := C92_ellipse hA.libm hB (q := ⟨a', e', i', Om', om', f'⟩) hmu' he' (he1'.trans (by norm_num)) ha'
  obtain ⟨x, z', hx, hz', d1, d2⟩ := par2ic_change (i := i') (Om := Om') (om := om') ha' hmu' he' he1' hf
  have ez : z' = z := by rw [hz'] at hz; exact Option.some.inj (Res.ok.inj hz)
  have ex : x = eccState a' e' i' Om' om' E' mu' := by
    rw [par2ic_ell ha' hmu' he' (by linarith) hc hs] at hx; exact (Option.some.inj (Res.ok.inj hx)).symm
  obtain ⟨g1, g2⟩ := eccState_change ha hmu he he1 he' he1' hε (show 60 * u ≤ 1 / 1000 by linarith) da de dm di dO dom dc ds
  rw [← ex] at g1 g2
  rw [ez] at d1 d2
  have hK : 125 * ((1 + e') / (1 - e')) * (1 / 2 ^ 53) ≤ 209 * u := by
    have : (1 + e') / (1 - e') ≤ 5 / 3 := by rw [div_le_iff₀ (by linarith)]; linarith
    change 125 * _ * u ≤ _
    nlinarith
  dsimp only at c1 c2
  have K0 : 0 ≤ 125 * ((1 + e') / (1 - e')) * (1 / 2 ^ 53) := by
    have : 0 < 1 - e' := by linarith
    positivity
  generalize 125 * ((1 + e') / (1 - e')) * (1 / 2 ^ 53) = K at *
  have p1 := vec_trans (by positivity) d1 g1
  have p2 := vec_trans (by positivity) d2 g2
  have q1 := vec_trans K0 c1 p1
  have q2 := vec_trans K0 c2 p2
  have uε : u * ε ≤ u * (1 / 1000) := mul_le_mul_of_nonneg_left hε hu.le
  have uu : u * u ≤ u * (1 / 1000) := mul_le_mul_of_nonneg_left (by linarith) hu.le
  have fin : ∀ j : ℝ, 0 ≤ j → j ≤ 3.4 * ε + 40 * (60 * u) → j + 3.3 * (48 * u) * (1 + j) + K * (1 + (j + 3.3 * (48 * u) * (1 + j))) ≤ 3.4 * ε + 3000 * u := by
    intro j j0 hj
    have j1 : j ≤ 0.01 := by linarith
    have a1 : 3.3 * (48 * u) * (1 + j) ≤ 3.3 * (48 * u) * 1.01 := mul_le_mul_of_nonneg_left (by linarith) (by positivity)
    have a2 : K * (1 + (j + 3.3 * (48 * u) * (1 + j))) ≤ 209 * u * 1.02 := by
      refine mul_le_mul hK (by linarith) ?_ (by positivity)
      have : 0 ≤ 3.3 * (48 * u) * (1 + j) := by positivity
      linarith
    linarith
  refine ⟨y, hy, q1.trans ?_, q2.trans ?_⟩
  · exact mul_le_mul_of_nonneg_right (fin _ (by positivity) (by linarith)) (norm_nonneg _)
  · exact mul_le_mul_of_nonneg_right (fin _ (by positivity) (by linarith)) (norm_nonneg _)

/-- **C93**: for all eight planets and all dates of the interval, `eph` returns the state of the ellipse of the secular elements with a relative error of
`5 tol + 300000 · 2⁻⁵³` in position and in velocity, where `tol` is what the root finder leaves of Kepler's equation. -/
theorem C93_eph {A : LibmT} (hA : A.Double) (hat : ∀ y x, |A.atan2 y x - atan2 y x| ≤ 4 * u * |atan2 y x|) {B : Blas} (hB : B.Ok) {sv : SolverD} {tol : ℝ}
    (ht : tol ≤ 1 / 2 ^ 20) (hq : sv.Quick) (hsv : sv.Settles A tol) {s : List Char} {p : JplLp} (hp : ofName s = .ok p) {t : ℝ} (h1 : -73048 < t) (h2 : t < 18263) {T E : ℝ} {w : Arr6}
    (hT : T * 36525 = t - 1 / 2) (hw : ∀ i, w i = p.elements0 i + p.elementsDot i * T) (hE : E - w 1 * sin E = (w 3 - w 4) * (π / 180))
    {a : ℝ} {P Q : V3 ℝ} (ha : a = w 0 * AU) (hP : P = colP (w 2 * (π / 180)) (w 5 * (π / 180)) ((w 4 - w 5) * (π / 180)))
    (hQ : Q = colQ (w 2 * (π / 180)) (w 5 * (π / 180)) ((w 4 - w 5) * (π / 180))) {x : RV ℝ}
    (hr : x.r = (a * (cos E - w 1)) • P + (a * √(1 - w 1 ^ 2) * sin E) • Q)
    (hv : x.v = (√(MU_SUN / a) / (1 - w 1 * cos E)) • ((-sin E) • P + (√(1 - w 1 ^ 2) * cos E) • Q)) :
    ∃ y, ephD A B sv p t = .ok (some y) ∧
      norm (y.r - x.r) ≤ (5 * tol + 300000 * (1 / 2 ^ 53)) * norm x.r ∧ norm (y.v - x.v) ≤ (5 * tol + 300000 * (1 / 2 ^ 53)) * norm x.v := by
  change ∃ y, _ ∧ _ ≤ (5 * tol + 300000 * u) * _ ∧ _ ≤ (5 * tol + 300000 * u) * _
  have hu := u_pos
  have hus := u_small
  have T1 : -2.01 ≤ T := by linarith
  have T2 : T ≤ 0.5 := by linarith
  have hz := sizes hp T1 T2
  have U := updatedD_err hA p hT (abs_le.2 ⟨T1, by linarith⟩)
  have hmuc := (C34_physical hp).1
  have hb : ∀ i, |w i| ≤ |p.elements0 i| + 2.01 * |p.elementsDot i| := fun i => by
    rw [hw i]
    refine (abs_add_le _ _).trans (add_le_add le_rfl ?_)
    rw [abs_mul, mul_comm]
    exact mul_le_mul_of_nonneg_right (abs_le.2 ⟨T1, by linarith⟩) (abs_nonneg _)
  simp only [← hw] at U
  have za := hz.a
  have za0 := hz.a0
  have ze0 := hz.e0
  rw [← hw] at za za0 ze0
  have xe : x = eccState a (w 1) (w 2 * (π / 180)) (w 5 * (π / 180)) ((w 4 - w 5) * (π / 180)) E MU_SUN := by
    obtain ⟨xr, xv⟩ := x
    dsimp only at hr hv
    rw [hr, hv, hP, hQ]
    unfold eccState inFrame
    congr 1 <;> ext <;> simp <;> ring
  -- the errors of the elements
  have Ue := (U 1).1
  have e1 : |updatedD A p t 1 - w 1| ≤ 2 * u := Ue.trans (by have := mul_le_mul_of_nonneg_left hz.e hu.le; linarith)
  have e1' := abs_le.1 e1
  have we : w 1 ≤ 0.24 := (le_abs_self _).trans ((hb 1).trans hz.e)
  obtain ⟨a0, a1, m0, m1⟩ := axis_err hA za0 (U 0).1 za
  have i1 := deg_err hA ((U 2).1.trans (by
    have := mul_nonneg hu.le ((abs_nonneg _).trans (hb 2)); linarith)) (hb 2)
  have O1 := deg_err hA ((U 5).1.trans (by
    have := mul_nonneg hu.le ((abs_nonneg _).trans (hb 5)); linarith)) (hb 5)
  have o1 := deg_err hA (diff_err hA (U 4).1 (U 5).1 (U 4).2.1 (U 5).2.1) ((abs_sub _ _).trans (add_le_add (hb 4) (hb 5)))
  have M1 := deg_err hA (diff_err hA (U 3).1 (U 4).1 (U 3).2.1 (U 4).2.1) ((abs_sub _ _).trans (add_le_add (hb 3) (hb 4)))
  have lim : ∀ {S c k : ℝ}, S ≤ c → 0.21 * c ≤ k → 0.21 * u * S ≤ k * u := fun {S c k} g1 g2 => by
    have := mul_le_mul_of_nonneg_left g1 hu.le
    have := mul_le_mul_of_nonneg_left g2 hu.le
    linarith
  have i2 := i1.trans (lim hz.i (show 0.21 * 250 ≤ 60 by norm_num))
  have O2 := O1.trans (lim hz.Om (show 0.21 * 250 ≤ 60 by norm_num))
  have o2 := o1.trans (lim hz.om (show 0.21 * 250 ≤ 60 by norm_num))
  have M2 := M1.trans (lim hz.M (show 0.21 * 301000 ≤ 63300 by norm_num))
  have run : ephD A B sv p t = (do
      let f ← m2fD A sv (A.rd (A.rd (updatedD A p t 3 - updatedD A p t 4) * deg2radD A)) (updatedD A p t 1)
      match f with
      | some f => par2icD A.toLibm B ⟨A.rd (updatedD A p t 0 * A.rd AU), updatedD A p t 1, A.rd (updatedD A p t 2 * deg2radD A),
          A.rd (updatedD A p t 5 * deg2radD A), A.rd (A.rd (updatedD A p t 4 - updatedD A p t 5) * deg2radD A), f⟩ (A.rd p.muCentralBody)
      | none => return none) := by
    unfold ephD fElementsD
    rw [if_neg (by rintro (h | h) <;> linarith)]
    dsimp only
    cases m2fD A sv (A.rd (A.rd (updatedD A p t 3 - updatedD A p t 4) * deg2radD A)) (updatedD A p t 1) with
    | ok f => cases f <;> rfl
    | err e => rfl
    | ub => rfl
  rw [run]
  obtain ⟨E', f, f', hrun, t0, df, hc, hs, dc, ds⟩ := m2fD_err hA hat ht hq hsv (E := E) (e := w 1) (show 0 ≤ updatedD A p t 1 by linarith) (show updatedD A p t 1 ≤ 1 / 4 by linarith) M2 e1 hE
  rw [hrun, hmuc]
  obtain ⟨y, hy, y1, y2⟩ := stateD_err hA hB (ε := 1.334 * tol + 84500 * u) (mul_pos za0 AU_pos) MU_SUN_pos a0 m0 (show 0 ≤ w 1 by linarith) (show w 1 ≤ 1 / 4 by linarith)
    (show 0 ≤ updatedD A p t 1 by linarith) (show updatedD A p t 1 ≤ 1 / 4 by linarith) (by norm_num at ht; linarith)
    (a1.trans (mul_le_mul_of_nonneg_right (by linarith) (mul_pos za0 AU_pos).le)) (e1.trans (by linarith))
    (m1.trans (mul_le_mul_of_nonneg_right (by linarith) (sqrt_nonneg _))) i2 O2 o2 dc ds hc hs df
  rw [← ha, ← xe] at y1 y2
  have c : 3.4 * (1.334 * tol + 84500 * u) + 3000 * u ≤ 5 * tol + 300000 * u := by linarith
  exact ⟨y, hy, y1.trans (mul_le_mul_of_nonneg_right c (norm_nonneg _)), y2.trans (mul_le_mul_of_nonneg_right c (norm_nonneg _))⟩

open Classical in
/-- A root finder for the example: a double that meets the equation up to 40 units of roundoff, if there is one. -/
noncomputable def pickSolver : SolverD := fun f _ _ _ =>
  if h : ∃ E, Rep E ∧ ∃ y d, f E = some (y, d) ∧ |y| ≤ 40 * u then (h.choose, 0) else (0, 0)

theorem pickSolver_quick : pickSolver.Quick := by
  intro f g lo hi
  unfold pickSolver
  split_ifs <;> simp

theorem pickSolver_spec {f : ℝ → Option (ℝ × ℝ)} (h : ∃ E, Rep E ∧ ∃ y d, f E = some (y, d) ∧ |y| ≤ 40 * u) (g lo hi : ℝ) :
    Rep (pickSolver f g lo hi).1 ∧ ∃ y d, f (pickSolver f g lo hi).1 = some (y, d) ∧ |y| ≤ 40 * u := by
  unfold pickSolver
  rw [dif_pos h]
  exact h.choose_spec

theorem pickSolver_settles {A : LibmT} (hA : A.Double) (hat : ∀ y x, |A.atan2 y x - atan2 y x| ≤ 4 * u * |atan2 y x|) : pickSolver.Settles A (40 * u) := by
  intro M ecc E h0 h1 hE
  have hex : ∃ E, Rep E ∧ ∃ y d, some (kepED A E (A.atan2 (A.sin M) (A.cos M)) ecc, d_kepED A E ecc) = some (y, d) ∧ |y| ≤ 40 * u := by
    obtain ⟨E, hr, hb⟩ := kepED_attainable hA h0 h1 (wrap_err hA.libm hat M).2
    exact ⟨E, hr, _, _, rfl, hb⟩
  have hs := pickSolver_spec (f := fun E => some (kepED A E (A.atan2 (A.sin M) (A.cos M)) ecc, d_kepED A E ecc)) hex
  unfold m2eD at hE
  rw [if_neg h1.not_ge] at hE
  dsimp only at hE
  rw [if_neg (pickSolver_quick _ _ _ _)] at hE
  have hE := Option.some.inj (Res.ok.inj hE)
  obtain ⟨hr, y, d, hy, hb⟩ := hs (igED A (A.atan2 (A.sin M) (A.cos M)) (A.sin M) (A.cos M) ecc)
    (A.rd (igED A (A.atan2 (A.sin M) (A.cos M)) (A.sin M) (A.cos M) ecc - A.rd π)) (A.rd (igED A (A.atan2 (A.sin M) (A.cos M)) (A.sin M) (A.cos M) ecc + A.rd π))
  rw [hE] at hr hy
  have h : kepED A E (A.atan2 (A.sin M) (A.cos M)) ecc = y := (Prod.ext_iff.1 (Option.some.inj hy)).1
  rw [h]
  exact ⟨hr, hb⟩

/-- The hypotheses are met: the Earth on day 8000, with correct rounding and this root finder; the state is accurate to 300200 units of roundoff, 3.4e-11. -/
example : ∃ (p : JplLp) (x : RV ℝ), ofName "Earth".toList = .ok p ∧ norm x.r ≠ 0 ∧
    (∃ y, ephD .rounded (.naive .rounded) pickSolver p 8000 = .ok (some y) ∧
    norm (y.r - x.r) ≤ (5 * (40 * u) + 300000 * (1 / 2 ^ 53)) * norm x.r ∧ norm (y.v - x.v) ≤ (5 * (40 * u) + 300000 * (1 / 2 ^ 53)) * norm x.v) := by
  have hat : ∀ y x, |LibmT.rounded.atan2 y x - atan2 y x| ≤ 4 * u * |atan2 y x| := fun y x => rn_err4 _
  obtain ⟨p, hp⟩ := (C34_names "Earth".toList).1.2 ⟨"earth", by simp [JplLp.names], by unfold SameName; simp⟩
  obtain ⟨T, hT⟩ : ∃ T : ℝ, T = 7999.5 / 36525 := ⟨_, rfl⟩
  have hz := sizes hp (T := T) (by rw [hT]; norm_num) (by rw [hT]; norm_num)
  have e1 : p.elements0 1 + p.elementsDot 1 * T < 1 := by
    have h1 := hz.e
    have h2 := le_abs_self (p.elements0 1)
    have h3 := le_abs_self (p.elementsDot 1 * T)
    rw [abs_mul] at h3
    have h4 : |T| ≤ 2.01 := by rw [abs_of_pos (by rw [hT]; norm_num), hT]; norm_num
    have := mul_le_mul_of_nonneg_left h4 (abs_nonneg (p.elementsDot 1))
    linarith
  have e0 : 0 ≤ p.elements0 1 + p.elementsDot 1 * T := le_trans (by norm_num) hz.e0
  obtain ⟨E, hE, -⟩ := kepler_root e0 e1 (((p.elements0 3 + p.elementsDot 3 * T) - (p.elements0 4 + p.elementsDot 4 * T)) * (π / 180))
  set w : Arr6 := fun i => p.elements0 i + p.elementsDot i * T with hw
  have ax : 0 < w 0 * AU := mul_pos hz.a0 AU_pos
  let x : RV ℝ := eccState (w 0 * AU) (w 1) (w 2 * (π / 180)) (w 5 * (π / 180)) ((w 4 - w 5) * (π / 180)) E MU_SUN
  refine ⟨p, x, hp, ?_, C93_eph LibmT.rounded_double hat (Blas.naive_ok Arith.rounded_double) (by unfold u; norm_num) pickSolver_quick (pickSolver_settles LibmT.rounded_double hat) hp
    (by norm_num) (by norm_num) (T := T) (E := E) (w := w) (by rw [hT]; norm_num) (fun i => rfl) hE rfl rfl rfl ?_ ?_⟩
  · have : norm x.r = _ := eccState_r ax e0 e1 _ _ _ E MU_SUN
    rw [this]
    have : 0 < 1 - w 1 * cos E := by nlinarith [cos_le_one E, neg_one_le_cos E, show 0 ≤ w 1 from e0, show w 1 < 1 from e1]
    positivity
  · show inFrame _ _ _ _ _ = _
    unfold inFrame
    ext <;> simp <;> ring
  · show inFrame _ _ _ _ _ = _
    unfold inFrame
    ext <;> simp <;> ring

end JplLp
end Kep3
