import Verif.Planet.Motion75
import Verif.Print.Lambert

/-!
# C83: what planets print

The numbers in the text of `get_extra_info`, which is printed with a planet (src/planet.cpp:107-110). The text around them and
their decimal digits are not modelled.
-/

namespace Kep3
open Real V3

/-- The lines printed for a planet with elements, src/udpla/keplerian.cpp:171-185, src/udpla/jpl_lp.cpp:208-218. `sma` and
`mean` are lines that are not always there; `none` as a number is NaN. -/
structure PlanetInfo where
  /-- "Semi major axis" -/
  sma : Option (Option ℝ)
  /-- "Semi major axis (AU)" -/
  smaAU : Option ℝ
  /-- "Eccentricity" -/
  ecc : Option ℝ
  /-- "Inclination (deg.)" -/
  inc : Option ℝ
  /-- "Big Omega (deg.)" -/
  Om : Option ℝ
  /-- "Small omega (deg.)" -/
  om : Option ℝ
  /-- "True anomly (deg.)" -/
  f : Option ℝ
  /-- "Mean anomly (deg.)" -/
  mean : Option (Option ℝ)
  /-- "Elements reference epoch (MJD2000)" -/
  ref : ℝ
  /-- "r at ref. =" and "v at ref. =" -/
  state : RV (Option ℝ)

/-- `keplerian::get_extra_info`, src/udpla/keplerian.cpp:169-187, for elements that are numbers (when some are NaN the model
does not say which, and none is taken to be a number). -/
noncomputable def Keplerian.info (k : Keplerian) : PlanetInfo where
  sma := some (k.kepF.map (·.a))
  smaAU := k.kepF.map (·.a / AU)
  ecc := k.kepF.map (·.e)
  inc := k.kepF.map (·.i * RAD2DEG)
  Om := k.kepF.map (·.Om * RAD2DEG)
  om := k.kepF.map (·.om * RAD2DEG)
  f := k.kepF.map (·.f * RAD2DEG)
  mean := if k.ellipse then some (k.kepF.bind fun q => (f2m q.f q.e).map (· * RAD2DEG)) else none
  ref := k.refEpoch
  state := spread k.posVel0

/-- `jpl_lp::get_extra_info`, src/udpla/jpl_lp.cpp:203-220: the elements and the ephemerides for `0.`, and the epoch printed
is the literal `0.` too. -/
noncomputable def JplLp.info (sv : Solver) (p : JplLp) : Res PlanetInfo := do
  let par ← p.elements sv 0 .kepF
  let x ← p.eph sv 0
  return { sma := none, smaAU := par.map (· 0 / AU), ecc := par.map (· 1), inc := par.map (· 2 * RAD2DEG),
           Om := par.map (· 3 * RAD2DEG), om := par.map (· 4 * RAD2DEG), f := par.map (· 5 * RAD2DEG),
           mean := some (par.bind fun q => (f2m (q 5) (q 1)).map (· * RAD2DEG)), ref := 0, state := x }

/-- The text is about the planet: all of the elements are numbers; read in astronomical units and degrees they are elements
(par2ic) of the state printed below them; that state is the one of the planet at the epoch printed. If the semi-major axis is
printed twice the numbers agree, and a mean anomaly that is printed belongs to the true one. -/
structure PlanetInfo.About (i : PlanetInfo) (u : Udpla) (mu : ℝ) (a e inc Om om f : ℝ) (x : RV ℝ) : Prop where
  smaAU_eq : i.smaAU = some a
  ecc_eq : i.ecc = some e
  inc_eq : i.inc = some inc
  Om_eq : i.Om = some Om
  om_eq : i.om = some om
  f_eq : i.f = some f
  sma_eq : ∀ s, i.sma = some s → s = some (a * 149597870700)
  state_eq : i.state = spread (some x)
  eph : Planet.eph u i.ref = .ok (spread (some x))
  par : par2ic ⟨a * 149597870700, e, inc * (π / 180), Om * (π / 180), om * (π / 180), f * (π / 180)⟩ mu = .ok (some x)

theorem deg_rad (x : ℝ) : x * RAD2DEG * (π / 180) = x := by
  unfold RAD2DEG
  have := pi_pos.ne'
  field_simp

theorem au_au (x : ℝ) : x / AU * 149597870700 = x := by
  unfold AU
  ring

/-- **C83**: the text printed for a Keplerian planet. The mean anomaly is there exactly on an ellipse. -/
theorem C83_keplerian {sv : Solver} (hsv : sv.Sound) (hq : sv.Quick) {k : Keplerian} (nan : Res (RV (Option ℝ)))
    (text : String) {x : RV ℝ} {p : Arr6} (hk : k.Describes x p) (hmu : 0 < k.muCentralBody) (hh : cross x.r x.v ≠ 0)
    (hE : energy x k.muCentralBody ≠ 0) :
    (∃ a e inc Om om f, k.info.About (k.udpla sv nan text) k.muCentralBody a e inc Om om f x) ∧
    (0 < p 0 → cos (p 5 / 2) ≠ 0 → ∃ M m, k.info.mean = some (some M) ∧
      Planet.elements (k.udpla sv nan text) k.info.ref .kepM = .ok (some m) ∧ m 5 = M * (π / 180)) ∧
    (p 0 < 0 → k.info.mean = none) := by
  have hpar := hk.par 0
  simp only [Keplerian.elements, Res.ok.injEq, Option.map_eq_some_iff] at hpar
  obtain ⟨q, hq0, hqp⟩ := hpar
  have hst := hk.par_state
  rw [← hqp, Par.ofArr_arr] at hst
  refine ⟨⟨q.a / AU, q.e, q.i * RAD2DEG, q.Om * RAD2DEG, q.om * RAD2DEG, q.f * RAD2DEG, ?_⟩, ?_, ?_⟩
  · constructor
    any_goals (simp only [Keplerian.info, hq0, Option.map_some]; done)
    · intro s hs
      simp only [Keplerian.info, hq0, Option.map_some] at hs
      rw [← Option.some.inj hs, au_au]
    · simp only [Keplerian.info, hk.state]
    · exact C37_reference hsv hq hmu hk.state hh hE
    · simp only [deg_rad, au_au]
      exact hst
  · intro hp hc
    obtain ⟨E, m, hm, -⟩ := hk.mean hp hc
    have h := hm k.refEpoch
    have hell : k.ellipse = true := by
      by_contra h0
      rw [Bool.not_eq_true] at h0
      simp [Keplerian.elements, h0] at h
    simp only [Keplerian.elements, hell, Bool.not_true, Bool.false_eq_true, if_false, hq0, Res.ok.injEq] at h
    simp only [Option.bind_eq_bind, Option.bind_some, Option.bind_eq_some_iff] at h
    obtain ⟨M, hM, hMm⟩ := h
    refine ⟨M * RAD2DEG, m, ?_, hm k.info.ref, ?_⟩
    · simp only [Keplerian.info, hell, if_true, hq0, Option.bind_some, hM, Option.map_some]
    · rw [deg_rad, ← Option.some.inj hMm]
      rfl
  · intro hp
    have h := hk.mean_hyp hp 0
    by_cases hell : k.ellipse = true
    · simp only [Keplerian.elements, hell] at h
      exact nomatch h
    · simp only [Keplerian.info, hell]
      rfl

/-- No planet of the table is at its apocentre at the epoch 0: the mean anomaly in degrees is not an odd multiple of 180. -/
theorem jpl_not_apo {n : ℕ} {el : Arr6 × Arr6} {r f mu : ℝ} (h : JplLp.data n = some (el, r, f, mu)) :
    cos ((el.1 3 + el.2 3 * ((0 - 1 / 2) / 36525) - (el.1 4 + el.2 4 * ((0 - 1 / 2) / 36525))) * (π / 180)) ≠ -1 := by
  have key : ∀ (y : ℝ) (k : ℤ), 180 + 360 * (k : ℝ) < y → y < 180 + 360 * ((k + 1 : ℤ) : ℝ) → cos (y * (π / 180)) ≠ -1 := by
    intro y k h1 h2 hc
    rw [cos_eq_neg_one_iff] at hc
    obtain ⟨j, hj⟩ := hc
    have : y = 180 + 360 * j := by
      have := pi_pos.ne'
      field_simp at hj
      linarith
    rw [this] at h1 h2
    have a : (k : ℝ) < j := by linarith
    have b : (j : ℝ) < (k + 1 : ℤ) := by linarith
    have a' : k < j := by exact_mod_cast a
    have b' : j < k + 1 := by exact_mod_cast b
    omega
  unfold JplLp.data at h
  split at h <;> simp only [Option.some.injEq, Prod.mk.injEq, reduceCtorEq] at h
  all_goals obtain ⟨rfl, -⟩ := h
  · exact key _ (-1) (by simp only [JplLp.mercury, Matrix.cons_val]; norm_num) (by simp only [JplLp.mercury, Matrix.cons_val]; norm_num)
  · exact key _ (-1) (by simp only [JplLp.venus, Matrix.cons_val]; norm_num) (by simp only [JplLp.venus, Matrix.cons_val]; norm_num)
  · exact key _ (-1) (by simp only [JplLp.earthMoon, Matrix.cons_val]; norm_num) (by simp only [JplLp.earthMoon, Matrix.cons_val]; norm_num)
  · exact key _ (-1) (by simp only [JplLp.mars, Matrix.cons_val]; norm_num) (by simp only [JplLp.mars, Matrix.cons_val]; norm_num)
  · exact key _ (-1) (by simp only [JplLp.jupiter, Matrix.cons_val]; norm_num) (by simp only [JplLp.jupiter, Matrix.cons_val]; norm_num)
  · exact key _ (-1) (by simp only [JplLp.saturn, Matrix.cons_val]; norm_num) (by simp only [JplLp.saturn, Matrix.cons_val]; norm_num)
  · exact key _ (-1) (by simp only [JplLp.uranus, Matrix.cons_val]; norm_num) (by simp only [JplLp.uranus, Matrix.cons_val]; norm_num)
  · exact key _ (-1) (by simp only [JplLp.neptune, Matrix.cons_val]; norm_num) (by simp only [JplLp.neptune, Matrix.cons_val]; norm_num)

/-- **C83**: the text printed for each of the low-precision planets: it can be printed, all of its numbers are numbers, and
they are those of the planet at the epoch printed; the mean anomaly is the one of the table. -/
theorem C83_jpl {sv : Solver} (hsv : sv.Sound) (hq : sv.Quick) (text : Res String) {s : List Char} {p : JplLp}
    (hp : JplLp.ofName s = .ok p) : ∃ i, p.info sv = .ok i ∧ i.ref = 0 ∧
      (∃ a e inc Om om f x, i.About (p.udpla sv text) MU_SUN a e inc Om om f x) ∧
      ∃ M m, i.mean = some (some M) ∧ Planet.elements (p.udpla sv text) i.ref .kepM = .ok (some m) ∧
        m 5 = M * (π / 180) := by
  obtain ⟨n, el, r, f, mu, hd, d1, d2, -⟩ := JplLp.ofName_ok hp
  have hM := jpl_not_apo hd
  rw [← d1, ← d2] at hM
  obtain ⟨-, -, -, h⟩ := C35_ellipse hsv hq text hp (t := 0) (by norm_num) (by norm_num)
    (T := (0 - 1 / 2) / 36525) (u := fun i => p.elements0 i + p.elementsDot i * ((0 - 1 / 2) / 36525)) (by ring)
    (fun _ => rfl) rfl
  obtain ⟨q, x, m, g, e1, e2, e3, -, -, -, -, -, -, -, -, e4, -⟩ := h hM
  have hm : ∃ M, f2m (q 5) (q 1) = some M ∧ m 5 = M := by
    change p.elements sv 0 .kepF = _ at e2
    change p.elements sv 0 .kepM = _ at e3
    unfold JplLp.elements at e2 e3
    cases hF : p.fElements sv 0 with
    | err e => rw [hF] at e2; exact nomatch e2
    | ub => rw [hF] at e2; exact nomatch e2
    | ok w =>
      rw [hF] at e2 e3
      have e2' : w.map Par.arr = some q := Res.ok.inj e2
      obtain ⟨w', rfl, rfl⟩ := Option.map_eq_some_iff.1 e2'
      have e3' := Res.ok.inj e3
      simp only [Option.bind_eq_bind, Option.bind_some, Option.bind_eq_some_iff] at e3'
      obtain ⟨M, hM, hm⟩ := e3'
      exact ⟨M, hM, by rw [← Option.some.inj hm]; rfl⟩
  obtain ⟨M, hM1, hM2⟩ := hm
  have e1' : p.eph sv 0 = .ok (spread (some x)) := e1
  have e2' : p.elements sv 0 .kepF = .ok (some q) := e2
  have hi : p.info sv = .ok { sma := none, smaAU := some (q 0 / AU), ecc := some (q 1), inc := some (q 2 * RAD2DEG), Om := some (q 3 * RAD2DEG), om := some (q 4 * RAD2DEG), f := some (q 5 * RAD2DEG), mean := some (some (M * RAD2DEG)), ref := 0, state := spread (some x) } := by
    unfold JplLp.info
    rw [e2', e1']
    simp only [Res.ok_bind, Option.map_some, Option.bind_some, hM1]
    rfl
  refine ⟨_, hi, rfl, ⟨q 0 / AU, q 1, q 2 * RAD2DEG, q 3 * RAD2DEG, q 4 * RAD2DEG, q 5 * RAD2DEG, x, ?_⟩,
    M * RAD2DEG, m, rfl, e3, by rw [deg_rad, hM2]⟩
  constructor <;> try rfl
  · intro s hs; exact nomatch hs
  · exact e1
  · simp only [deg_rad, au_au]
    exact e4

/-- The hypotheses of `C83_keplerian` can be met: an ellipse that is inclined. -/
example : ∃ a e inc Om om f, (Keplerian.ofState 0 tilted 1 "a" (-1) (-1) (-1)).info.About
    ((Keplerian.ofState 0 tilted 1 "a" (-1) (-1) (-1)).udpla idealSolver .ub "") 1 a e inc Om om f tilted := by
  obtain ⟨h1, h2, h3, h4⟩ := tilted_facts
  have hE : energy tilted 1 < 0 := by rw [h4]; norm_num
  obtain ⟨p, hp, -⟩ := C36_state 0 tilted one_pos "a" (-1) (-1) (-1) (Or.inr h2) h3 hE.ne
  exact (C83_keplerian idealSolver_sound idealSolver_quick .ub "" hp one_pos h1 hE.ne).1

/-- The hypothesis of `C83_jpl` can be met. -/
example : ∃ p, JplLp.ofName "mars".toList = .ok p := ⟨_, rfl⟩

end Kep3
