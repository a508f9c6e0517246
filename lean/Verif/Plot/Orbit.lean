import Verif.Plot.Lambert
import Verif.Planet.Python
import Verif.Planet.Motion75

/-!
# Plots of the orbits of planets

`pykep/plot/_planet.py`: `add_planet_orbit`. The points handed to `ax.plot` are modelled, in exact real arithmetic.
-/

namespace Kep3.Plot
open Kep3 Real V3

/-- `pla.eph_v(epochs)[:, :3] / units`, pykep/plot/_planet.py:83-84, with the array of pykep/core.cpp:212-233. -/
noncomputable def orbitPoints (u : Udpla) (epochs : List ℝ) (units : ℝ) : Res (List (V3 (Option ℝ))) := do
  let out ← Planet.ephV u epochs
  (List.range epochs.length).mapM fun i => do
    let r ← PyPlanet.rowOf out i
    return ⟨(r.getD 0 none).bind (div? · units), (r.getD 1 none).bind (div? · units), (r.getD 2 none).bind (div? · units)⟩

/-- `add_planet_orbit`, pykep/plot/_planet.py:40-90. The default of `pla.period()` is epoch 0 (pykep/core.cpp:249-254).
What is drawn when the period is NaN (all epochs are) is the parameter `nan`. -/
noncomputable def addPlanetOrbit (nan : Res (List (V3 (Option ℝ)))) (u : Udpla) (range : Option (ℝ × ℝ)) (units : ℝ)
    (N : ℕ) : Res (List (V3 (Option ℝ))) :=
  match range with
  | none => do
    match ← Planet.period u 0 with
    | none => nan
    | some T => orbitPoints u (linspace 0 (T * SEC2DAY) N) units
  | some ab => orbitPoints u (linspace ab.1 ab.2 N) units

theorem linspace_length (a b : ℝ) (N : ℕ) : (linspace a b N).length = N := by simp [linspace]

theorem linspace_get {a b : ℝ} {N i : ℕ} (h : i < (linspace a b N).length) :
    (linspace a b N)[i] = a + i * ((b - a) / (N - 1)) := by simp [linspace]

theorem range_mapM {α : Type} (f : ℕ → Res α) (g : ℕ → α) : ∀ n, (∀ i < n, f i = .ok (g i)) →
    (List.range n).mapM f = .ok ((List.range n).map g)
  | 0, _ => rfl
  | n + 1, h => by
    rw [List.range_succ, List.mapM_append, range_mapM f g n (fun i hi => h i (by omega))]
    simp [h n (by omega)]

/-- What is drawn, from the scalar calls. -/
theorem orbitPoints_ok {u : Udpla} (hv : u.ephV = none) {ts : List ℝ} {units : ℝ} (hu : units ≠ 0) {x : ℕ → RV (Option ℝ)}
    (h : ∀ i (hi : i < ts.length), Planet.eph u ts[i] = .ok (x i)) : orbitPoints u ts units =
      .ok ((List.range ts.length).map fun i => ⟨(x i).r.x.map (· / units), (x i).r.y.map (· / units),
        (x i).r.z.map (· / units)⟩) := by
  obtain ⟨out, ho⟩ := C09_ok hv ts fun t ht => by
    obtain ⟨i, hi, rfl⟩ := List.getElem_of_mem ht
    exact ⟨_, h i hi⟩
  unfold orbitPoints
  rw [ho, Res.ok_bind]
  have hd : (fun y => div? y units) = fun y => some (y / units) := by
    funext y; exact div?_ok hu
  have hb : ∀ o : Option ℝ, (o.bind fun y => some (y / units)) = o.map (· / units) := by
    intro o; cases o <;> rfl
  refine range_mapM _ _ _ fun i hi => ?_
  obtain ⟨y, hy, hr⟩ := PyPlanet.C70_eph_v hv ho i hi
  rw [h i hi] at hy
  obtain rfl := Res.ok.inj hy
  rw [hr, Res.ok_bind]
  simp only [hd, hb]
  rfl

/-- **C76**: with a range, the points are the positions of the planet at equally spaced epochs, from the first to the last
of the range; an epoch at which the ephemeris fails makes the plot fail. -/
theorem C76_range {u : Udpla} (hv : u.ephV = none) (nan : Res (List (V3 (Option ℝ)))) (a b : ℝ) {units : ℝ}
    (hu : units ≠ 0) {N : ℕ} (hN : 2 ≤ N) :
    (∀ x : ℕ → RV (Option ℝ), (∀ i < N, Planet.eph u (a + i * ((b - a) / (N - 1))) = .ok (x i)) →
      addPlanetOrbit nan u (some (a, b)) units N = .ok ((List.range N).map fun i => ⟨(x i).r.x.map (· / units),
        (x i).r.y.map (· / units), (x i).r.z.map (· / units)⟩)) ∧
    ((∃ i < N, ∃ e, Planet.eph u (a + i * ((b - a) / (N - 1))) = .err e) →
      ¬ ∃ pts, addPlanetOrbit nan u (some (a, b)) units N = .ok pts) ∧
    a + ((0 : ℕ) : ℝ) * ((b - a) / (N - 1)) = a ∧ a + ((N - 1 : ℕ) : ℝ) * ((b - a) / (N - 1)) = b := by
  have hN1 : (N : ℝ) - 1 ≠ 0 := by
    have : (2 : ℝ) ≤ N := by exact_mod_cast hN
    linarith
  refine ⟨fun x hx => ?_, ?_, by simp, ?_⟩
  · have := orbitPoints_ok hv hu (ts := linspace a b N) (x := x) fun i hi => by
      rw [linspace_get hi]; exact hx i (by rwa [linspace_length] at hi)
    rw [linspace_length] at this
    exact this
  · rintro ⟨i, hi, e, he⟩ ⟨pts, hp⟩
    change orbitPoints u (linspace a b N) units = _ at hp
    unfold orbitPoints at hp
    cases ho : Planet.ephV u (linspace a b N) with
    | ok out =>
      obtain ⟨x, hx, -⟩ := (C09_rows hv ho).2 i (by rw [linspace_length]; exact hi)
      rw [linspace_get, he] at hx
      exact nomatch hx
    | err e => rw [ho] at hp; exact nomatch hp
    | ub => rw [ho] at hp; exact nomatch hp
  · rw [Nat.cast_sub (by omega)]
    push_cast
    field_simp
    ring

/-- **C76**: without a range, and with neither a period nor a parameter of the central body, nothing is drawn. -/
theorem C76_no_period {u : Udpla} (h1 : u.period = none) (h2 : u.muCentralBody = none) (nan : Res (List (V3 (Option ℝ))))
    (units : ℝ) (N : ℕ) : addPlanetOrbit nan u none units N = .err .notImplemented := by
  unfold addPlanetOrbit Planet.period
  rw [h1, h2]
  rfl

/-- **C76**: the orbit drawn by default for a Keplerian planet on an ellipse is closed, and goes around once: the points
are the positions of the motion at equally spaced times, the first and the last are the same, and no two of the others
are the same state. -/
theorem C76_keplerian {sv : Solver} (hsv : sv.Sound) (hq : sv.Quick) {k : Keplerian} {nan : Res (RV (Option ℝ))}
    {info : String} {x : RV ℝ} {p : Arr6} (hk : k.Describes x p) (hmu : 0 < k.muCentralBody) (hh : cross x.r x.v ≠ 0)
    (hE : energy x k.muCentralBody < 0) (nanP : Res (List (V3 (Option ℝ)))) {units : ℝ} (hu : units ≠ 0) {N : ℕ}
    (hN : 2 ≤ N) {γ : ℝ → RV ℝ} (hγ : TwoBody k.muCentralBody γ) (h0 : γ 0 = x) :
    ∃ T pts, k.period = some T ∧ 0 < T ∧ addPlanetOrbit nanP (k.udpla sv nan info) none units N = .ok pts ∧
      pts.length = N ∧
      (∀ i < N, pts[i]? = some ⟨some ((γ (i * (T / (N - 1)) - k.refEpoch * 86400)).r.x / units),
        some ((γ (i * (T / (N - 1)) - k.refEpoch * 86400)).r.y / units),
        some ((γ (i * (T / (N - 1)) - k.refEpoch * 86400)).r.z / units)⟩) ∧
      pts[0]? = pts[N - 1]? ∧
      ∀ i j : ℕ, i < j → j < N - 1 →
        γ (i * (T / (N - 1)) - k.refEpoch * 86400) ≠ γ (j * (T / (N - 1)) - k.refEpoch * 86400) := by
  subst h0
  have hN1 : (1 : ℝ) ≤ (N : ℝ) - 1 := by
    have : (2 : ℝ) ≤ N := by exact_mod_cast hN
    linarith
  obtain ⟨T, t0, t1, t2, t3⟩ := C10_returns hmu hγ hh hE
  have hper : k.period = some T := by rw [hk.period_eq, t1 0]
  have heph : ∀ t, Planet.eph (k.udpla sv nan info) t = .ok (spread (some (γ ((t - k.refEpoch) * 86400)))) := by
    intro t
    rcases C37_flow hsv (nan := nan) (info := info) hmu hγ hk.state hh hE.ne t (fun h => absurd h hE.not_gt) with h | ⟨-, h⟩
    · exact h
    · exact absurd hq h
  have hrun : addPlanetOrbit nanP (k.udpla sv nan info) none units N
      = orbitPoints (k.udpla sv nan info) (linspace 0 (T * SEC2DAY) N) units := by
    unfold addPlanetOrbit
    have : Planet.period (k.udpla sv nan info) 0 = .ok (some T) := by
      show Res.ok k.period = _
      rw [hper]
    rw [this]
    rfl
  have htime : ∀ i : ℕ, ((0 + (i : ℝ) * ((T * SEC2DAY - 0) / (N - 1))) - k.refEpoch) * 86400
      = i * (T / (N - 1)) - k.refEpoch * 86400 := by
    intro i
    have h : SEC2DAY = 1 / 86400 := by unfold SEC2DAY DAY2SEC; norm_num
    rw [h]
    field_simp
    ring
  have hpts := orbitPoints_ok (u := k.udpla sv nan info) rfl hu (ts := linspace 0 (T * SEC2DAY) N)
    (x := fun i => spread (some (γ (i * (T / (N - 1)) - k.refEpoch * 86400)))) fun i hi => by
      rw [linspace_get hi, heph, htime]
  rw [linspace_length] at hpts
  refine ⟨T, _, hper, t0, by rw [hrun]; exact hpts, by simp, fun i hi => ?_, ?_, fun i j hij hj => ?_⟩
  · simp [hi, spread]
  · rw [List.getElem?_map, List.getElem?_map, List.getElem?_range (by omega), List.getElem?_range (by omega)]
    have h1 : ((N - 1 : ℕ) : ℝ) * (T / (N - 1)) = T := by
      rw [Nat.cast_sub (by omega)]
      push_cast
      field_simp
    have h2 := t2 (((0 : ℕ) : ℝ) * (T / (N - 1)) - k.refEpoch * 86400)
    simp only [Option.map_some]
    rw [h1, show T - k.refEpoch * 86400 = ((0 : ℕ) : ℝ) * (T / (N - 1)) - k.refEpoch * 86400 + T by simp; ring, h2]
  · have hij' : (i : ℝ) < j := by exact_mod_cast hij
    have hj' : (j : ℝ) < (N : ℝ) - 1 := by
      have : ((j + 1 : ℕ) : ℝ) < N := by exact_mod_cast (by omega : j + 1 < N)
      push_cast at this
      linarith
    have hd : 0 < T / ((N : ℝ) - 1) := div_pos t0 (by linarith)
    have := t3 (i * (T / (N - 1)) - k.refEpoch * 86400) ((j - i) * (T / (N - 1))) (mul_pos (by linarith) hd) (by
      have h3 : ((j : ℝ) - i) * (T / (N - 1)) < (N - 1) * (T / (N - 1)) := by
        refine mul_lt_mul_of_pos_right ?_ hd
        have : (0 : ℝ) ≤ i := Nat.cast_nonneg i
        linarith
      have h4 : ((N : ℝ) - 1) * (T / (N - 1)) = T := by field_simp
      linarith)
    intro h
    apply this
    rw [h]
    congr 1
    ring

/-! ## The low-precision planets -/

open JplLp in
/-- The semi-major axis (in astronomical units) and the mean anomaly (in degrees) at epoch 0. -/
theorem jpl_zero {n : ℕ} {el r f mu} (h : data n = some (el, r, f, mu)) (T : ℝ) (hT : T * 36525 = 0 - 1 / 2) :
    -180 < (el.1 3 + el.2 3 * T) - (el.1 4 + el.2 4 * T) ∧ (el.1 3 + el.2 3 * T) - (el.1 4 + el.2 4 * T) < 180 := by
  have hT' : T = -1 / 73050 := by linarith
  subst hT'
  refine data_cases (P := fun d => -180 < (d.1.1 3 + d.1.2 3 * (-1 / 73050)) - (d.1.1 4 + d.1.2 4 * (-1 / 73050)) ∧
    (d.1.1 3 + d.1.2 3 * (-1 / 73050)) - (d.1.1 4 + d.1.2 4 * (-1 / 73050)) < 180) ?_ ?_ ?_ ?_ ?_ ?_ ?_ ?_ h
  all_goals
    simp only [mercury, venus, earthMoon, mars, jupiter, saturn, uranus, neptune, Matrix.cons_val]
    norm_num

/-- The period at epoch 0 of the low-precision planets. -/
theorem jpl_period {sv : Solver} (hsv : sv.Sound) (hq : sv.Quick) (info : Res String) {s : List Char} {p : JplLp}
    (hp : JplLp.ofName s = .ok p) : ∃ a, a = (p.elements0 0 + p.elementsDot 0 * (-1 / 73050)) * AU ∧
      Planet.period (p.udpla sv info) 0 = .ok (some (2 * π * √(a ^ 3 / MU_SUN))) := by
  obtain ⟨n, el, r, f, mu, hd, d1, d2, -⟩ := JplLp.ofName_ok hp
  obtain ⟨b1, b2⟩ := jpl_zero hd (-1 / 73050) (by norm_num)
  rw [← d1, ← d2] at b1 b2
  obtain ⟨-, -, -, h⟩ := C35_ellipse hsv hq info hp (t := 0) (by norm_num) (by norm_num) (T := -1 / 73050)
    (u := fun i => p.elements0 i + p.elementsDot i * (-1 / 73050)) (by norm_num) (fun _ => rfl) rfl
  obtain ⟨q, x, m, g, -, -, -, -, e0, -, -, -, -, -, -, -, -, -, e1⟩ := h (by
    have hpi := pi_pos
    set D := p.elements0 3 + p.elementsDot 3 * (-1 / 73050) - (p.elements0 4 + p.elementsDot 4 * (-1 / 73050))
    have hlt : |D * (π / 180)| < π := by
      rw [abs_lt]
      constructor <;> nlinarith
    have : cos π < cos |D * (π / 180)| := cos_lt_cos_of_nonneg_of_le_pi (abs_nonneg _) le_rfl hlt
    rw [cos_pi, cos_abs] at this
    exact this.ne')
  exact ⟨q 0, e0, e1⟩

open JplLp in
/-- **C76**: for the planets up to Saturn the default range is inside of the dates covered, and the orbit is drawn. -/
theorem C76_jpl_inner {sv : Solver} (hsv : sv.Sound) (hq : sv.Quick) (info : Res String) {s : List Char} {p : JplLp}
    (hp : JplLp.ofName s = .ok p) (h7 : ¬ SameName s "uranus") (h8 : ¬ SameName s "neptune")
    (nanP : Res (List (V3 (Option ℝ)))) {units : ℝ} (hu : units ≠ 0) {N : ℕ} (hN : 2 ≤ N) :
    ∃ pts, addPlanetOrbit nanP (p.udpla sv info) none units N = .ok pts ∧ pts.length = N := by
  obtain ⟨a, ha, hper⟩ := jpl_period hsv hq info hp
  have hpi := pi_pos
  have hpi4 := pi_lt_four
  -- the semi-major axis
  have hbd : 0 < p.elements0 0 + p.elementsDot 0 * (-1 / 73050) ∧ p.elements0 0 + p.elementsDot 0 * (-1 / 73050) < 10 := by
    unfold ofName at hp
    simp only [] at hp
    split at hp
    · exact nomatch hp
    · rename_i n hl
      have hmem := lookup_some.1 hl
      have hn7 : n ≠ 7 := by
        rintro rfl
        simp only [mappedPlanets, List.mem_cons, Prod.mk.injEq, List.not_mem_nil, or_false, Nat.reduceEqDiff, and_false,
          and_true, false_or, OfNat.ofNat_ne_one] at hmem
        exact h7 ((lower_iff s "uranus" (by decide)).1 hmem)
      have hn8 : n ≠ 8 := by
        rintro rfl
        simp only [mappedPlanets, List.mem_cons, Prod.mk.injEq, List.not_mem_nil, or_false, Nat.reduceEqDiff, and_false,
          and_true, false_or, OfNat.ofNat_ne_one] at hmem
        exact h8 ((lower_iff s "neptune" (by decide)).1 hmem)
      split at hp
      · exact nomatch hp
      · rename_i el r f mu hd
        obtain rfl := Res.ok.inj hp
        match n, hd, hn7, hn8 with
        | 1, hd, _, _ =>
          obtain ⟨rfl, -⟩ := Prod.mk.inj (Option.some.inj hd); norm_num [mercury]
        | 2, hd, _, _ =>
          obtain ⟨rfl, -⟩ := Prod.mk.inj (Option.some.inj hd); norm_num [venus]
        | 3, hd, _, _ =>
          obtain ⟨rfl, -⟩ := Prod.mk.inj (Option.some.inj hd); norm_num [earthMoon]
        | 4, hd, _, _ =>
          obtain ⟨rfl, -⟩ := Prod.mk.inj (Option.some.inj hd); norm_num [mars]
        | 5, hd, _, _ =>
          obtain ⟨rfl, -⟩ := Prod.mk.inj (Option.some.inj hd); norm_num [jupiter]
        | 6, hd, _, _ =>
          obtain ⟨rfl, -⟩ := Prod.mk.inj (Option.some.inj hd); norm_num [saturn]
        | 7, _, h, _ => exact absurd rfl h
        | 8, _, _, h => exact absurd rfl h
  have hAU := AU_pos
  have a0 : 0 < a := by rw [ha]; exact mul_pos hbd.1 hAU
  have a1 : a < 10 * AU := by rw [ha]; exact mul_lt_mul_of_pos_right hbd.2 hAU
  have hs : √(a ^ 3 / MU_SUN) < 170000000 := by
    rw [sqrt_lt' (by norm_num), div_lt_iff₀ MU_SUN_pos]
    have : a ^ 3 < (10 * AU) ^ 3 := pow_lt_pow_left₀ a1 a0.le (by norm_num)
    refine this.trans ?_
    unfold AU MU_SUN; norm_num
  have hs0 := sqrt_nonneg (a ^ 3 / MU_SUN)
  have hT0 : 0 ≤ 2 * π * √(a ^ 3 / MU_SUN) * SEC2DAY := by
    have : 0 < SEC2DAY := by unfold SEC2DAY DAY2SEC; norm_num
    positivity
  have hT1 : 2 * π * √(a ^ 3 / MU_SUN) * SEC2DAY < 18263 := by
    have h : SEC2DAY = 1 / 86400 := by unfold SEC2DAY DAY2SEC; norm_num
    rw [h]
    nlinarith
  have hN1 : (1 : ℝ) ≤ (N : ℝ) - 1 := by
    have : (2 : ℝ) ≤ N := by exact_mod_cast hN
    linarith
  have hrun : addPlanetOrbit nanP (p.udpla sv info) none units N
      = orbitPoints (p.udpla sv info) (linspace 0 (2 * π * √(a ^ 3 / MU_SUN) * SEC2DAY) N) units := by
    unfold addPlanetOrbit
    rw [hper]
    rfl
  set T := 2 * π * √(a ^ 3 / MU_SUN) * SEC2DAY with hTd
  have hok : ∀ i : ℕ, ∃ y, i < N → Planet.eph (p.udpla sv info) (0 + i * ((T - 0) / (N - 1))) = .ok y := by
    intro i
    by_cases hi : i < N
    · have hi' : (i : ℝ) ≤ (N : ℝ) - 1 := by
        have : ((i + 1 : ℕ) : ℝ) ≤ N := by exact_mod_cast hi
        push_cast at this
        linarith
      have hd : 0 ≤ T / ((N : ℝ) - 1) := div_nonneg hT0 (by linarith)
      have h3 : (i : ℝ) * (T / (N - 1)) ≤ T := by
        have := mul_le_mul_of_nonneg_right hi' hd
        have h4 : ((N : ℝ) - 1) * (T / (N - 1)) = T := by field_simp
        linarith
      have h4 : 0 ≤ (i : ℝ) * (T / (N - 1)) := mul_nonneg (Nat.cast_nonneg i) hd
      obtain ⟨-, ⟨y, hy⟩, -⟩ := C35_ellipse hsv hq info hp (t := 0 + i * ((T - 0) / (N - 1)))
        (by rw [sub_zero]; linarith) (by rw [sub_zero]; linarith)
        (T := (0 + i * ((T - 0) / (N - 1)) - 1 / 2) / 36525) (u := fun j => p.elements0 j + p.elementsDot j * _)
        (by field_simp) (fun _ => rfl) rfl
      exact ⟨y, fun _ => hy⟩
    · exact ⟨⟨⟨none, none, none⟩, ⟨none, none, none⟩⟩, fun h => absurd h hi⟩
  choose y hy using hok
  have hpts := orbitPoints_ok (u := p.udpla sv info) rfl hu (ts := linspace 0 T N) (x := y) fun i hi => by
    rw [linspace_get hi]; exact hy i (by rwa [linspace_length] at hi)
  exact ⟨_, by rw [hrun]; exact hpts, by simp [linspace_length]⟩

open JplLp in
/-- **C76** does not hold for Uranus and Neptune: their period is longer than the dates covered, and the default
range makes the plot raise a domain error. -/
theorem C76_jpl_outer {sv : Solver} (hsv : sv.Sound) (hq : sv.Quick) (info : Res String) {s : List Char} {p : JplLp}
    (hp : JplLp.ofName s = .ok p) (hs : SameName s "uranus" ∨ SameName s "neptune")
    (nanP : Res (List (V3 (Option ℝ)))) (units : ℝ) {N : ℕ} (hN : 2 ≤ N) :
    addPlanetOrbit nanP (p.udpla sv info) none units N = .err .domainError := by
  obtain ⟨a, ha, hper⟩ := jpl_period hsv hq info hp
  have hpi := pi_gt_three
  have hbd : 19 < p.elements0 0 + p.elementsDot 0 * (-1 / 73050) := by
    unfold ofName at hp
    rcases hs with hs | hs
    · simp only [(lower_iff s "uranus" (by decide)).2 hs,
        lookup_some.2 (show ("uranus".toList, 7) ∈ mappedPlanets by simp [mappedPlanets])] at hp
      obtain rfl := Res.ok.inj hp
      norm_num [uranus]
    · simp only [(lower_iff s "neptune" (by decide)).2 hs,
        lookup_some.2 (show ("neptune".toList, 8) ∈ mappedPlanets by simp [mappedPlanets])] at hp
      obtain rfl := Res.ok.inj hp
      norm_num [neptune]
  have hAU := AU_pos
  have a1 : 19 * AU < a := by rw [ha]; exact mul_lt_mul_of_pos_right hbd hAU
  have hsq : 400000000 < √(a ^ 3 / MU_SUN) := by
    rw [lt_sqrt (by norm_num), lt_div_iff₀ MU_SUN_pos]
    have : (19 * AU) ^ 3 < a ^ 3 := pow_lt_pow_left₀ a1 (by linarith) (by norm_num)
    refine lt_trans ?_ this
    unfold AU MU_SUN; norm_num
  have hT1 : 18263 ≤ 2 * π * √(a ^ 3 / MU_SUN) * SEC2DAY := by
    have h : SEC2DAY = 1 / 86400 := by unfold SEC2DAY DAY2SEC; norm_num
    rw [h]
    nlinarith
  set T := 2 * π * √(a ^ 3 / MU_SUN) * SEC2DAY with hTd
  have hrun : addPlanetOrbit nanP (p.udpla sv info) none units N = orbitPoints (p.udpla sv info) (linspace 0 T N) units := by
    unfold addPlanetOrbit
    rw [hper]
    rfl
  -- the scalar calls succeed up to the first refused date
  have hcall : ∀ t ∈ linspace 0 T N, (∃ y, Planet.eph (p.udpla sv info) t = .ok y) ∨
      Planet.eph (p.udpla sv info) t = .err .domainError := by
    intro t ht
    obtain ⟨i, hi, rfl⟩ := List.getElem_of_mem ht
    rw [linspace_get]
    have h0 : 0 ≤ 0 + (i : ℝ) * ((T - 0) / (N - 1)) := by
      have hN1 : (0 : ℝ) < (N : ℝ) - 1 := by
        have : (2 : ℝ) ≤ N := by exact_mod_cast hN
        linarith
      have : 0 ≤ (T - 0) / ((N : ℝ) - 1) := div_nonneg (by linarith) hN1.le
      have := mul_nonneg (Nat.cast_nonneg (α := ℝ) i) this
      linarith
    by_cases hlt : 0 + (i : ℝ) * ((T - 0) / (N - 1)) < 18263
    · left
      exact (C35_ellipse hsv hq info hp (by linarith) hlt
        (T := (0 + i * ((T - 0) / (N - 1)) - 1 / 2) / 36525) (u := fun j => p.elements0 j + p.elementsDot j * _)
        (by field_simp) (fun _ => rfl) rfl).2.1
    · right
      exact (C34_dates sv info p (Or.inr (not_lt.1 hlt)) .kepF).1
  have hlast : ∃ t ∈ linspace 0 T N, Planet.eph (p.udpla sv info) t = .err .domainError := by
    refine ⟨(linspace 0 T N)[N - 1]'(by rw [linspace_length]; omega), List.getElem_mem _, ?_⟩
    rw [linspace_get]
    refine (C34_dates sv info p (Or.inr ?_) .kepF).1
    have hN1 : (N : ℝ) - 1 ≠ 0 := by
      have : (2 : ℝ) ≤ N := by exact_mod_cast hN
      linarith
    rw [Nat.cast_sub (by omega)]
    push_cast
    rw [show (0 + ((N : ℝ) - 1) * ((T - 0) / (N - 1))) = T by field_simp; ring]
    exact hT1
  have hv : Planet.ephV (p.udpla sv info) (linspace 0 T N) = .err .domainError := by
    rw [C09_err rfl]
    clear hrun
    generalize linspace 0 T N = l at *
    induction l with
    | nil => obtain ⟨t, ht, -⟩ := hlast; simp at ht
    | cons t l ih =>
      rcases hcall t List.mem_cons_self with hy | he
      · obtain ⟨t', ht', he'⟩ := hlast
        rcases List.mem_cons.1 ht' with rfl | ht'
        · obtain ⟨y, hy⟩ := hy
          rw [hy] at he'
          exact nomatch he'
        · obtain ⟨pre, w, post, h1, h2, h3⟩ := ih (fun t ht => hcall t (List.mem_cons_of_mem _ ht)) ⟨t', ht', he'⟩
          refine ⟨t :: pre, w, post, by rw [h1]; rfl, fun v hv => ?_, h3⟩
          rcases List.mem_cons.1 hv with rfl | hv
          · exact hy
          · exact h2 v hv
      · exact ⟨[], t, l, rfl, fun v hv => by simp at hv, he⟩
  rw [hrun]
  unfold orbitPoints
  rw [hv]
  rfl

/-! ## Concrete cases -/

/-- The default orbit of an inclined ellipse, with the 60 points of the default. -/
example : ∃ pts, addPlanetOrbit (.ok []) ((Keplerian.ofState 0 tilted 1 "a" (-1) (-1) (-1)).udpla idealSolver .ub "") none AU 60
    = .ok pts ∧ pts.length = 60 ∧ pts[0]? = pts[59]? := by
  obtain ⟨h1, h2, h3, h4⟩ := tilted_facts
  have hE : energy tilted 1 < 0 := by rw [h4]; norm_num
  obtain ⟨p, hp, -⟩ := C36_state 0 tilted one_pos "a" (-1) (-1) (-1) (Or.inr h2) h3 hE.ne
  obtain ⟨T, pts, -, -, e1, e2, -, e3, -⟩ := C76_keplerian idealSolver_sound idealSolver_quick (nan := .ub) (info := "") hp
    one_pos h1 hE (.ok []) AU_pos.ne' (N := 60) (by norm_num) (kepFlow_twoBody one_pos h1) (kepFlow_zero one_pos h1)
  exact ⟨pts, e1, e2, e3⟩

/-- Uranus. -/
example : ∃ p, JplLp.ofName "Uranus".toList = .ok p ∧
    addPlanetOrbit (.ok []) (p.udpla idealSolver (.ok "")) none AU 60 = .err .domainError := by
  have hs : JplLp.SameName "Uranus".toList "uranus" := by
    rw [← JplLp.lower_iff _ _ (by decide)]; decide
  obtain ⟨p, hp⟩ := (C34_names "Uranus".toList).1.2 ⟨"uranus", by simp [JplLp.names], hs⟩
  exact ⟨p, hp, C76_jpl_outer idealSolver_sound idealSolver_quick _ hp (Or.inl hs) _ _ (by norm_num)⟩

/-- Saturn, and the failing range of `C76_range` (dates before the year 1800). -/
example : ∃ p, JplLp.ofName "saturn".toList = .ok p ∧
    (∃ pts, addPlanetOrbit (.ok []) (p.udpla idealSolver (.ok "")) none AU 60 = .ok pts) ∧
    ¬ ∃ pts, addPlanetOrbit (.ok []) (p.udpla idealSolver (.ok "")) (some (-80000, 0)) AU 60 = .ok pts := by
  have hs : JplLp.SameName "saturn".toList "saturn" := by
    rw [← JplLp.lower_iff _ _ (by decide)]; decide
  obtain ⟨p, hp⟩ := (C34_names "saturn".toList).1.2 ⟨"saturn", by simp [JplLp.names], hs⟩
  obtain ⟨pts, h, -⟩ := C76_jpl_inner idealSolver_sound idealSolver_quick (.ok "") hp
    (by rw [← JplLp.lower_iff _ _ (by decide)]; decide) (by rw [← JplLp.lower_iff _ _ (by decide)]; decide) (.ok [])
    AU_pos.ne' (N := 60) (by norm_num)
  refine ⟨p, hp, ⟨pts, h⟩, (C76_range rfl (.ok []) (-80000) 0 AU_pos.ne' (by norm_num)).2.1 ⟨0, by norm_num, .domainError, ?_⟩⟩
  exact (C34_dates _ _ p (Or.inl (by norm_num)) .kepF).1

end Kep3.Plot
