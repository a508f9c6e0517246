import Verif.Planet.Props36
import Verif.Epoch.Double

/-!
# C71: planets defined by a TLE or by SPICE kernels, and the Keplerian version of a planet

`pykep/udpla/_tle.py`, `pykep/udpla/_spice.py`, `pykep/utils/_planet_to_keplerian.py`, exact real arithmetic. The packages
sgp4 and spiceypy are parameters.
-/

namespace Kep3
open Real V3

/-! ## The Keplerian version of a planet -/

/-- The Keplerian planet made from a state with NaNs, src/udpla/keplerian.cpp:33-50: no comparison with NaN holds. -/
def Keplerian.ofNan (ref mu : ℝ) (name : String) (muSelf radius safeRadius : ℝ) : Keplerian where
  refEpoch := ref
  name := name
  muCentralBody := mu
  muSelf := muSelf
  radius := radius
  safeRadius := safeRadius
  period := none
  ellipse := true
  posVel0 := none
  sma := none
  kepF := none

/-- The parameter given or that of the planet, pykep/utils/_planet_to_keplerian.py:21-27. -/
noncomputable def ptkMu (pla : Udpla) : Option ℝ → Res ℝ
  | some mu => .ok mu
  | none => do
    let mu ← Planet.getMuCentralBody pla
    if mu = -1 then .err .value else .ok mu

/-- `planet_to_keplerian`, pykep/utils/_planet_to_keplerian.py:4-36. The epoch is its mjd2000. -/
noncomputable def planetToKeplerian (pla : Udpla) (when_ : ℝ) (mu : Option ℝ) : Res Keplerian := do
  let mu ← ptkMu pla mu
  let x ← Planet.eph pla when_
  let name ← Planet.getName pla
  let ms ← Planet.getMuSelf pla
  let rd ← Planet.getRadius pla
  let sr ← Planet.getSafeRadius pla
  match nums x with
  | some x => return Keplerian.ofState when_ x mu (name ++ "(K)") ms rd sr
  | none => return Keplerian.ofNan when_ mu (name ++ "(K)") ms rd sr

/-- What a successful call has read off the planet. -/
theorem ptk_inv {pla : Udpla} {t : ℝ} {mu : Option ℝ} {k : Keplerian} (h : planetToKeplerian pla t mu = .ok k) :
    ∃ m x name ms rd sr, ptkMu pla mu = .ok m ∧ Planet.eph pla t = .ok x ∧ Planet.getName pla = .ok name ∧
      Planet.getMuSelf pla = .ok ms ∧ Planet.getRadius pla = .ok rd ∧ Planet.getSafeRadius pla = .ok sr ∧
      k = match nums x with
        | some x => Keplerian.ofState t x m (name ++ "(K)") ms rd sr
        | none => Keplerian.ofNan t m (name ++ "(K)") ms rd sr := by
  unfold planetToKeplerian at h
  cases h1 : ptkMu pla mu with
  | err e => rw [h1] at h; exact nomatch h
  | ub => rw [h1] at h; exact nomatch h
  | ok m =>
  cases h2 : Planet.eph pla t with
  | err e => rw [h1, h2] at h; exact nomatch h
  | ub => rw [h1, h2] at h; exact nomatch h
  | ok x =>
  cases h3 : Planet.getName pla with
  | err e => rw [h1, h2, h3] at h; exact nomatch h
  | ub => rw [h1, h2, h3] at h; exact nomatch h
  | ok name =>
  cases h4 : Planet.getMuSelf pla with
  | err e => rw [h1, h2, h3, h4] at h; exact nomatch h
  | ub => rw [h1, h2, h3, h4] at h; exact nomatch h
  | ok ms =>
  cases h5 : Planet.getRadius pla with
  | err e => rw [h1, h2, h3, h4, h5] at h; exact nomatch h
  | ub => rw [h1, h2, h3, h4, h5] at h; exact nomatch h
  | ok rd =>
  cases h6 : Planet.getSafeRadius pla with
  | err e => rw [h1, h2, h3, h4, h5, h6] at h; exact nomatch h
  | ub => rw [h1, h2, h3, h4, h5, h6] at h; exact nomatch h
  | ok sr =>
    rw [h1, h2, h3, h4, h5, h6] at h
    refine ⟨m, x, name, ms, rd, sr, rfl, rfl, rfl, rfl, rfl, rfl, ?_⟩
    cases hx : nums x with
    | some y => simp only [Res.ok_bind, hx] at h; exact (Res.ok.inj h).symm
    | none => simp only [Res.ok_bind, hx] at h; exact (Res.ok.inj h).symm

theorem spread_nums {x : RV (Option ℝ)} {y : RV ℝ} (h : nums x = some y) : x = spread (some y) := by
  obtain ⟨⟨a, b, c⟩, ⟨d, e, f⟩⟩ := x
  cases a <;> cases b <;> cases c <;> cases d <;> cases e <;> cases f <;> simp [nums] at h
  subst h; rfl

/-- **C71**: the Keplerian version has the gravitational parameter asked for (or that of the planet), its radii and
gravitational parameter of its own, its name with a suffix, and the epoch as reference. -/
theorem C71_getters {pla : Udpla} {t : ℝ} {mu : Option ℝ} {k : Keplerian} (h : planetToKeplerian pla t mu = .ok k)
    (sv : Solver) (nan : Res (RV (Option ℝ))) (info : String) :
    Planet.getMuSelf (k.udpla sv nan info) = Planet.getMuSelf pla ∧
    Planet.getRadius (k.udpla sv nan info) = Planet.getRadius pla ∧
    Planet.getSafeRadius (k.udpla sv nan info) = Planet.getSafeRadius pla ∧
    (∃ n, Planet.getName pla = .ok n ∧ Planet.getName (k.udpla sv nan info) = .ok (n ++ "(K)")) ∧
    (∀ m, mu = some m → Planet.getMuCentralBody (k.udpla sv nan info) = .ok m) ∧
    (mu = none → Planet.getMuCentralBody (k.udpla sv nan info) = Planet.getMuCentralBody pla ∧ k.muCentralBody ≠ -1) ∧
    k.refEpoch = t := by
  obtain ⟨m, x, name, ms, rd, sr, h1, -, h3, h4, h5, h6, rfl⟩ := ptk_inv h
  rw [h3, h4, h5, h6]
  have hm1 : ∀ m', mu = some m' → m' = m := by
    rintro m' rfl; exact Res.ok.inj h1
  have hm : mu = none → Planet.getMuCentralBody pla = .ok m ∧ m ≠ -1 := by
    rintro rfl
    · change (Planet.getMuCentralBody pla >>= fun mu => if mu = -1 then Res.err .value else .ok mu) = _ at h1
      cases hg : Planet.getMuCentralBody pla with
      | err e => rw [hg] at h1; exact nomatch h1
      | ub => rw [hg] at h1; exact nomatch h1
      | ok g =>
        rw [hg] at h1
        simp only [Res.ok_bind] at h1
        by_cases hc : g = -1
        · rw [if_pos hc] at h1; exact nomatch h1
        · rw [if_neg hc] at h1
          obtain rfl := Res.ok.inj h1
          exact ⟨rfl, hc⟩
  clear h h1
  rcases nums x with _ | y <;> refine ⟨rfl, rfl, rfl, ⟨name, rfl, rfl⟩, fun m' hm' => ?_, fun hm' => ?_, rfl⟩ <;>
    first
    | (rw [hm1 m' hm']; rfl)
    | (rw [(hm hm').1]; exact ⟨rfl, (hm hm').2⟩)

/-- **C71**: at the epoch of the conversion the Keplerian version is where the planet is, with the same velocity. -/
theorem C71_state {sv : Solver} (hsv : sv.Sound) (hq : sv.Quick) {pla : Udpla} {t : ℝ} {mu : Option ℝ} {k : Keplerian}
    (h : planetToKeplerian pla t mu = .ok k) (hmu : 0 < k.muCentralBody) {x : RV ℝ}
    (hx : Planet.eph pla t = .ok (spread (some x))) (hh : cross x.r x.v ≠ 0) (hE : energy x k.muCentralBody ≠ 0)
    (nan : Res (RV (Option ℝ))) (info : String) :
    Planet.eph (k.udpla sv nan info) t = Planet.eph pla t := by
  obtain ⟨m, y, name, ms, rd, sr, -, h2, -, -, -, -, rfl⟩ := ptk_inv h
  rw [hx] at h2
  obtain rfl := Res.ok.inj h2
  rw [hx]
  exact C37_reference hsv hq (k := Keplerian.ofState t x m (name ++ "(K)") ms rd sr) hmu rfl hh hE

/-- **C71**: its elements at every epoch are the osculating ones of the planet at the epoch of the conversion, for a planet
(of a C++ or a Python class) that has no elements of its own and whose gravitational parameter is used. -/
theorem C71_elements {sv : Solver} {pla : Udpla} {t : ℝ} {k : Keplerian} (h : planetToKeplerian pla t none = .ok k)
    (hel : pla.elements = none ∨ ∃ o, pla = pythonUdpla o ∧ o.elements = none) {x : RV ℝ}
    (hx : Planet.eph pla t = .ok (spread (some x)))
    (nan : Res (RV (Option ℝ))) (info : String) (ty : ElType) (hty : ty ≠ .kepM) (s : ℝ) :
    Planet.elements (k.udpla sv nan info) s ty = Planet.elements pla t ty := by
  have hmu := (C71_getters h sv nan info).2.2.2.2.2.1 rfl
  obtain ⟨m, y, name, ms, rd, sr, h1, h2, -, -, -, -, hk⟩ := ptk_inv h
  rw [hx] at h2
  obtain rfl := Res.ok.inj h2
  change k = Keplerian.ofState t x m (name ++ "(K)") ms rd sr at hk
  subst hk
  have hm : Planet.getMuCentralBody pla = .ok m := hmu.1.symm
  have hm1 : m ≠ -1 := hmu.2
  have hr : Planet.elements pla t ty = elementsFromPosvel x m ty := by
    rcases hel with hel | ⟨o, rfl, hel⟩
    · cases hg : pla.muCentralBody with
      | none =>
        unfold Planet.getMuCentralBody at hm
        rw [hg] at hm
        exact absurd (Res.ok.inj hm).symm hm1
      | some g =>
        unfold Planet.elements
        rw [hel, hg, hx, hm]
        rfl
    · change o.eph t = _ at hx
      change o.muCentralBody.getD (.ok (-1)) = _ at hm
      cases hg : o.muCentralBody with
      | none => rw [hg] at hm; exact absurd (Res.ok.inj hm).symm hm1
      | some g =>
        rw [hg] at hm
        change g = _ at hm
        subst hm
        unfold Planet.elements pythonUdpla
        simp only [hel, hg, hx]
        rfl
  rw [hr]
  show Keplerian.elements _ s ty = _
  cases ty <;> first | exact absurd rfl hty | rfl

/-- **C71**: without a gravitational parameter, given or of the planet, the conversion is refused with a `ValueError`;
with one it fails only if a method of the planet does. -/
theorem C71_value (pla : Udpla) (t : ℝ) :
    (Planet.getMuCentralBody pla = .ok (-1) → planetToKeplerian pla t none = .err .value) ∧
    (∀ mu x name ms rd sr, ptkMu pla mu = .ok x → (∃ y, Planet.eph pla t = .ok y) → Planet.getName pla = .ok name →
      Planet.getMuSelf pla = .ok ms → Planet.getRadius pla = .ok rd → Planet.getSafeRadius pla = .ok sr →
      ∃ k, planetToKeplerian pla t mu = .ok k) := by
  constructor
  · intro h
    unfold planetToKeplerian ptkMu
    rw [h]; simp
  · rintro mu x name ms rd sr h1 ⟨y, h2⟩ h3 h4 h5 h6
    unfold planetToKeplerian
    rw [h1, h2, h3, h4, h5, h6]
    simp only [Res.ok_bind]
    cases nums y <;> exact ⟨_, rfl⟩

/-- The default planet around a body of parameter one: the conversion succeeds, and the hypotheses of `C71_state` hold. -/
example : ∃ k, planetToKeplerian nullUdpla 5 (some 1) = .ok k ∧ 0 < k.muCentralBody ∧
    Planet.eph nullUdpla 5 = .ok (spread (some ⟨⟨1, 0, 0⟩, ⟨0, 1, 0⟩⟩)) ∧
    cross (⟨1, 0, 0⟩ : V3 ℝ) ⟨0, 1, 0⟩ ≠ 0 ∧ energy ⟨⟨1, 0, 0⟩, ⟨0, 1, 0⟩⟩ k.muCentralBody ≠ 0 := by
  refine ⟨_, rfl, one_pos, rfl, ?_, ?_⟩
  · intro h; have := congrArg V3.z h; simp [cross] at this
  · show energy ⟨⟨1, 0, 0⟩, ⟨0, 1, 0⟩⟩ 1 ≠ 0
    simp only [energy, V3.norm, V3.dot]; norm_num

/-! ## Satellites defined by a TLE -/

/-- What the package sgp4 computes: error code, position and velocity in kilometres, for a Julian date split in two; NaN
after an error. The array version is the same for every entry: an assumption about the package. -/
structure Sgp4 where
  one : ℝ → ℝ → ℤ × V3 (Option ℝ) × V3 (Option ℝ)

/-- A number times 1000; NaN stays NaN. -/
def kilo (x : Option ℝ) : Option ℝ := x.map (· * 1000)

/-- The split Julian date, pykep/udpla/_tle.py:54-56 and 69-71; `int` truncates towards zero. -/
noncomputable def tleSplit (mjd2000 : ℝ) : ℝ × ℝ :=
  let jd := mjd2000 + 2451544.5
  let i : ℤ := if 0 ≤ jd then ⌊jd⌋ else ⌈jd⌉
  (i, jd - i)

/-- `tle.eph`, pykep/udpla/_tle.py:45-58. -/
noncomputable def tleEph (s : Sgp4) (t : ℝ) : RV (Option ℝ) :=
  let r := s.one (tleSplit t).1 (tleSplit t).2
  ⟨⟨kilo r.2.1.x, kilo r.2.1.y, kilo r.2.1.z⟩, ⟨kilo r.2.2.x, kilo r.2.2.y, kilo r.2.2.z⟩⟩

/-- `numpy.hstack` of two arrays with the same number of rows. -/
def hstack {α : Type} (a b : List (List α)) : List (List α) := List.zipWith (· ++ ·) a b

/-- The rows of an array. -/
def vecRow {α : Type} (v : V3 α) : List α := [v.x, v.y, v.z]

/-- `tle.eph_v`, pykep/udpla/_tle.py:60-74, flattened, pykep/python_udpla.cpp:65. -/
noncomputable def tleEphV (s : Sgp4) (ts : List ℝ) : List (Option ℝ) :=
  let res := ts.map fun t => s.one (tleSplit t).1 (tleSplit t).2
  let r := res.map fun x => vecRow x.2.1
  let v := res.map fun x => vecRow x.2.2
  (hstack r v).flatten.map kilo

/-- The methods of `tle`, pykep/udpla/_tle.py:45-99; `muEarth` is the constant `pykep.MU_EARTH`. -/
noncomputable def tle (s : Sgp4) (muEarth : ℝ) (name info : String) : Udpla where
  typeName := "<class 'pykep.udpla._tle.tle'>"
  eph := fun t => .ok (tleEph s t)
  ephV := some fun ts => .ok (tleEphV s ts)
  muCentralBody := some (.ok muEarth)
  muSelf := none
  radius := none
  safeRadius := none
  name := some (.ok name)
  extraInfo := some (.ok info)
  period := none
  elements := none

/-- **C71**: the Julian date given to sgp4 is that of the epoch, day and fraction, the fraction below a day. -/
theorem C71_tle_date (t : ℝ) :
    (tleSplit t).1 + (tleSplit t).2 = t + 2451544.5 ∧ |(tleSplit t).2| < 1 ∧ (∃ n : ℤ, (tleSplit t).1 = n) ∧
      (-2451544.5 ≤ t → 0 ≤ (tleSplit t).2) := by
  unfold tleSplit
  by_cases h : 0 ≤ t + 2451544.5
  · simp only [if_pos h]
    have a := Int.floor_le (t + 2451544.5)
    have b := Int.lt_floor_add_one (t + 2451544.5)
    refine ⟨by ring, ?_, ⟨_, rfl⟩, fun _ => by linarith⟩
    rw [abs_lt]; constructor <;> linarith
  · simp only [if_neg h]
    have a := Int.le_ceil (t + 2451544.5)
    have b := Int.ceil_lt_add_one (t + 2451544.5)
    refine ⟨by ring, ?_, ⟨_, rfl⟩, fun h' => absurd (by linarith) h⟩
    rw [abs_lt]; constructor <;> linarith

theorem tleEphV_eq (s : Sgp4) (ts : List ℝ) : tleEphV s ts = ts.flatMap fun t => row (tleEph s t) := by
  unfold tleEphV hstack
  induction ts with
  | nil => rfl
  | cons t ts ih =>
    simp only [List.map_cons, List.zipWith_cons_cons, List.flatten_cons, List.map_append, List.flatMap_cons] at ih ⊢
    rw [ih]; rfl

/-- **C71**: the vectorised ephemeris of a TLE is, row by row, the scalar one: what the planet would compute without it. -/
theorem C71_tle_rows (s : Sgp4) (mu : ℝ) (name info : String) (ts : List ℝ) :
    Planet.ephV (tle s mu name info) ts = Planet.ephV { tle s mu name info with ephV := none } ts := by
  rw [ephV_default (u := { tle s mu name info with ephV := none }) rfl]
  show Res.ok (tleEphV s ts) = _
  rw [tleEphV_eq]
  have : ∀ ts : List ℝ, ts.mapM (m := Res) (fun t => Res.ok (tleEph s t)) = .ok (ts.map (tleEph s)) := by
    intro ts
    induction ts with
    | nil => rfl
    | cons t ts ih => rw [List.mapM_cons, ih]; rfl
  show _ = ((ts.mapM fun t => Res.ok (tleEph s t)) >>= fun xs => .ok (xs.flatMap row))
  rw [this]
  simp [List.flatMap_map]

/-- **C71, negation**: an error of sgp4 (a decayed satellite) raises nothing: the planet returns the NaNs it got. -/
theorem C71_tle_silent (mu : ℝ) (name info : String) (t : ℝ) (code : ℤ) :
    Planet.eph (tle ⟨fun _ _ => (code, ⟨none, none, none⟩, ⟨none, none, none⟩)⟩ mu name info) t = .ok (spread none) := rfl

/-- A satellite whose state is that of the default planet in kilometres. Its elements are those of its state, and its
Keplerian version exists. -/
example (mu : ℝ) (h : mu ≠ -1) : ∃ k, planetToKeplerian (pythonUdpla
    (tle ⟨fun _ _ => (0, ⟨some 1, some 0, some 0⟩, ⟨some 0, some 1, some 0⟩)⟩ mu "n" "i")) 3 none = .ok k := by
  refine (C71_value _ 3).2 none mu "n" (-1) (-1) (-1) ?_ ⟨_, rfl⟩ rfl rfl rfl rfl
  show (if mu = -1 then Res.err Exc.value else .ok mu) = .ok mu
  rw [if_neg h]

/-! ## Planets defined by SPICE kernels -/

/-- The attributes of a `spice` object, pykep/udpla/_spice.py:35-51, which the user may overwrite. -/
structure Spice where
  muCentralBody : ℝ
  muSelf : ℝ
  radius : ℝ
  safeRadius : ℝ

/-- The seconds given to SPICE, pykep/udpla/_spice.py:62, 67 and pykep/utils/_spice_utils.py:79. -/
noncomputable def spiceEpoch (mjd2000 : ℝ) : ℝ := (mjd2000 - 0.5) * DAY2SEC

/-- `spice.eph`, pykep/udpla/_spice.py:53-64; `spkezr` is the function of spiceypy, in kilometres. -/
noncomputable def spiceEph (spkezr : ℝ → Res (RV ℝ)) (t : ℝ) : Res (RV (Option ℝ)) := do
  let x ← spkezr (spiceEpoch t)
  return spread (some ⟨⟨x.r.x * 1000, x.r.y * 1000, x.r.z * 1000⟩, ⟨x.v.x * 1000, x.v.y * 1000, x.v.z * 1000⟩⟩)

/-- `spice.eph_v`, pykep/udpla/_spice.py:66-69, flattened, pykep/python_udpla.cpp:65. For an array of epochs spiceypy calls
SPICE for every one: an assumption about the package. -/
noncomputable def spiceEphV (spkezr : ℝ → Res (RV ℝ)) (ts : List ℝ) : Res (List (Option ℝ)) := do
  let rvs ← (ts.map spiceEpoch).mapM spkezr
  return rvs.flatMap fun x => (vecRow x.r ++ vecRow x.v).map fun c => some (c * 1000)

/-- The methods of `spice`, pykep/udpla/_spice.py:53-85: none of them reads the physical attributes. -/
noncomputable def spice (spkezr : ℝ → Res (RV ℝ)) (_a : Spice) (name info : String) : Udpla where
  typeName := "<class 'pykep.udpla._spice.spice'>"
  eph := spiceEph spkezr
  ephV := some (spiceEphV spkezr)
  muCentralBody := none
  muSelf := none
  radius := none
  safeRadius := none
  name := some (.ok name)
  extraInfo := some (.ok info)
  period := none
  elements := none

/-- **C71**: SPICE is asked for the seconds since J2000, which is the Julian date 2451545; mjd2000 starts half a day
before. -/
theorem C71_spice_epoch (t : ℝ) : spiceEpoch t = ((t + 2451544.5) - 2451545) * 86400 := by
  unfold spiceEpoch DAY2SEC; ring

/-- **C71**: the vectorised ephemeris of a SPICE planet is, row by row, the scalar one, and fails like it. -/
theorem C71_spice_rows (spkezr : ℝ → Res (RV ℝ)) (a : Spice) (name info : String) (ts : List ℝ) :
    Planet.ephV (spice spkezr a name info) ts = Planet.ephV { spice spkezr a name info with ephV := none } ts := by
  rw [ephV_default (u := { spice spkezr a name info with ephV := none }) rfl]
  show spiceEphV spkezr ts = (ts.mapM (spiceEph spkezr) >>= fun xs => .ok (xs.flatMap row))
  unfold spiceEphV
  induction ts with
  | nil => rfl
  | cons t ts ih =>
    rw [List.map_cons, List.mapM_cons, List.mapM_cons]
    cases h1 : spkezr (spiceEpoch t) with
    | err e => rw [show spiceEph spkezr t = .err e by unfold spiceEph; rw [h1]; rfl]; rfl
    | ub => rw [show spiceEph spkezr t = .ub by unfold spiceEph; rw [h1]; rfl]; rfl
    | ok x =>
      obtain ⟨y, hy, hr⟩ : ∃ y, spiceEph spkezr t = .ok y ∧
          row y = (vecRow x.r ++ vecRow x.v).map fun c => some (c * 1000) := by
        unfold spiceEph; rw [h1]; exact ⟨_, rfl, rfl⟩
      rw [hy]
      cases h2 : (ts.map spiceEpoch).mapM spkezr <;> cases h3 : ts.mapM (spiceEph spkezr) <;> rw [h2, h3] at ih <;>
        simp only [Res.ok_bind, Res.err_bind, Res.ub_bind, Res.pure_eq] at ih ⊢ <;>
        first
        | exact ih
        | (have := Res.ok.inj ih
           simp only [Res.ok_bind, Res.err_bind, Res.ub_bind, List.flatMap_cons, hr, this])
        | simp at ih

/-- **C71, negation**: whatever physical parameters the user writes into the object (as the comment at
pykep/udpla/_spice.py:46-47 invites to), the planet has none, and cannot be made Keplerian, nor has it a period. -/
theorem C71_spice_parameters (spkezr : ℝ → Res (RV ℝ)) (a : Spice) (name info : String) (t : ℝ) :
    Planet.getMuCentralBody (pythonUdpla (spice spkezr a name info)) = .ok (-1) ∧
    Planet.getMuSelf (pythonUdpla (spice spkezr a name info)) = .ok (-1) ∧
    Planet.getRadius (pythonUdpla (spice spkezr a name info)) = .ok (-1) ∧
    Planet.getSafeRadius (pythonUdpla (spice spkezr a name info)) = .ok (-1) ∧
    planetToKeplerian (pythonUdpla (spice spkezr a name info)) t none = .err .value ∧
    Planet.period (pythonUdpla (spice spkezr a name info)) t = .err .notImplemented :=
  ⟨rfl, rfl, rfl, rfl, (C71_value _ t).1 rfl, rfl⟩

/-! ## The kernel of `de440s` objects -/

namespace Kernels

/-- What can happen to `de440s` objects. -/
inductive Event
  /-- `de440s(...)`, pykep/udpla/_spice.py:101-105. -/
  | new
  /-- `copy`, `deepcopy` or unpickling: Python makes the object without `__init__`. -/
  | copy
  /-- The garbage collector calls `__del__`, pykep/udpla/_spice.py:107-111. -/
  | del
  deriving DecidableEq

/-- How often the kernel is loaded, and the number of objects. SPICE counts loads: an assumption about the library. -/
structure St where
  loaded : ℕ
  live : ℕ
  deriving DecidableEq

/-- One event; an event that cannot happen changes nothing. -/
def step (s : St) : Event → St
  | .new => ⟨s.loaded + 1, s.live + 1⟩
  | .copy => if s.live = 0 then s else ⟨s.loaded, s.live + 1⟩
  | .del => if s.live = 0 then s else ⟨s.loaded - 1, s.live - 1⟩

/-- A sequence of events. -/
def run (s : St) (es : List Event) : St := es.foldl step s

theorem run_inv (es : List Event) (h : Event.copy ∉ es) (s : St) (hs : s.live ≤ s.loaded) :
    (run s es).live ≤ (run s es).loaded := by
  induction es generalizing s with
  | nil => exact hs
  | cons e es ih =>
    refine ih (fun hc => h (List.mem_cons_of_mem _ hc)) (step s e) ?_
    cases e with
    | new => exact Nat.succ_le_succ hs
    | copy => exact absurd (List.mem_cons_self ..) h
    | del =>
      show (if s.live = 0 then s else ⟨s.loaded - 1, s.live - 1⟩ : St).live ≤
        (if s.live = 0 then s else ⟨s.loaded - 1, s.live - 1⟩ : St).loaded
      by_cases h0 : s.live = 0
      · rw [if_pos h0]; exact hs
      · rw [if_neg h0]; simp only; omega

/-- **C71, partial**: as long as no object is copied, the kernel is loaded while there is an object, in every order of
creation and destruction. Missing: copies (`C71_kernel_lost`). -/
theorem C71_kernel_partial (es : List Event) (h : Event.copy ∉ es) (n : ℕ) :
    0 < (run ⟨n, 0⟩ es).live → 0 < (run ⟨n, 0⟩ es).loaded :=
  fun hl => lt_of_lt_of_le hl (run_inv es h ⟨n, 0⟩ (Nat.zero_le n))

/-- **C71, negation**: after an object is copied and the copy is gone, the object is without its kernel. -/
theorem C71_kernel_lost : run ⟨0, 0⟩ [.new, .copy, .del] = ⟨0, 1⟩ := rfl

end Kernels
end Kep3
