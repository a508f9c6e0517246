import Verif.Epoch.Props
import Verif.Float

/-!
# Epochs and doubles, with rounding

The conversions between the count of microseconds and days or seconds as doubles, with every rounding of the C++ arithmetic
(`std::chrono` on doubles, with `Fl.rn` for each operation), the arithmetic of Python epochs and the constructor from a
`datetime`. Overflow of doubles and subnormal numbers are not modelled.
-/

namespace Kep3.Epoch
open Fl Kep3.EpochSpec

/-- `duration<double, period>(microseconds n)`, `D` microseconds per period: the count is converted to double and divided
(std::chrono::duration_cast), include/kep3/epoch.hpp:140-161 (days) and 167-170 (`as_sec`). -/
def toDouble (D n : Int) : ℚ := rn (rn (n : ℚ) / D)

/-- `duration_cast<microseconds>(duration<double, period>(x))`: a product of doubles, truncated; outside of the 64-bit range
undefined. src/epoch.cpp:213, include/kep3/epoch.hpp:203-213 (`+`, `-`) and 215-223 (`days`, `sec`). -/
def fromDouble (D : Int) (x : ℚ) : Res Int := chk64 (trunc (rn (x * D)))

/-- `tp_from_days`, src/epoch.cpp:211-214. -/
def tpFromDaysD (days : ℚ) : Res Int := do
  let us ← fromDouble 86400000000 days
  chk64 (y2kOffset + us)

/-- The offset of the day numbers, include/kep3/epoch.hpp:90-94. -/
def offset : JulianType → Int
  | .MJD2000 => 0
  | .MJD => mjdOffset
  | .JD => jdOffset

/-- `epoch(double, julian_type)`, src/epoch.cpp:38-55. -/
def ofJulianD (days : ℚ) (jt : JulianType) : Res Int :=
  match jt with
  | .MJD2000 => tpFromDaysD days
  | .MJD => do let t ← tpFromDaysD days; chk64 (t - mjdOffset)
  | .JD => do let t ← tpFromDaysD days; chk64 (t - jdOffset)

/-- `mjd2000()`, `mjd()`, `jd()`, include/kep3/epoch.hpp:140-161. -/
def julianD (e : Int) (jt : JulianType) : Res ℚ :=
  match jt with
  | .MJD2000 => do let n ← chk64 (e - y2kOffset); .ok (toDouble 86400000000 n)
  | .MJD => do let n ← chk64 (e - y2kOffset); let n ← chk64 (n + mjdOffset); .ok (toDouble 86400000000 n)
  | .JD => do let n ← chk64 (e - y2kOffset); let n ← chk64 (n + jdOffset); .ok (toDouble 86400000000 n)

/-- `epoch + float` in Python, days: pykep/core.cpp:181-182. -/
def addDays (e : Int) (x : ℚ) : Res Int := do let d ← fromDouble 86400000000 x; add e d
/-- `epoch - float` in Python, days: pykep/core.cpp:184-185. -/
def subDays (e : Int) (x : ℚ) : Res Int := do let d ← fromDouble 86400000000 x; sub e d
/-- `epoch + timedelta` in Python, `us` the whole number of microseconds of the `timedelta`: pybind11 converts it to a double
number of seconds, pykep/core.cpp:183. -/
def addDelta (e us : Int) : Res Int := do let d ← fromDouble 1000000 (toDouble 1000000 us); add e d
/-- `epoch - timedelta` in Python, pykep/core.cpp:186. -/
def subDelta (e us : Int) : Res Int := do let d ← fromDouble 1000000 (toDouble 1000000 us); sub e d

/-- A Python `datetime`, the fields read at pykep/core.cpp:150-156, and the offset from UTC of an aware one
(`utcoffset()`, microseconds), which the constructor does not read. -/
structure DateTime where
  year : Int
  month : Nat
  day : Nat
  hour : Int
  minute : Int
  second : Int
  microsecond : Int
  utcoffset : Option Int

/-- The ranges guaranteed by Python's `datetime`, and the existence of the date. -/
def DateTime.Valid (t : DateTime) : Prop :=
  (1 ≤ t.year ∧ t.year ≤ 9999) ∧ existsDate t.year t.month t.day ∧ (0 ≤ t.hour ∧ t.hour < 24) ∧
    (0 ≤ t.minute ∧ t.minute < 60) ∧ (0 ≤ t.second ∧ t.second < 60) ∧ (0 ≤ t.microsecond ∧ t.microsecond < 1000000)

/-- `epoch(datetime)`, pykep/core.cpp:142-158. The rejection of objects of other types is not modelled. -/
def ofDatetime (t : DateTime) : Res Int :=
  makeTp t.year t.month t.day t.hour t.minute t.second 0 t.microsecond

/-! ## Lemmas -/

/-- Truncation of a number within `k` of an integer is within `k` of it. -/
theorem trunc_near {y : ℚ} {n k : Int} (h : |y - n| ≤ k) : |trunc y - n| ≤ k := by
  rw [abs_le] at h
  rw [abs_le]
  unfold trunc
  split_ifs with h0
  · have h1 : n - k ≤ ⌊y⌋ := Int.le_floor.2 (by push_cast; linarith)
    have h2 : ((⌊y⌋ : Int) : ℚ) ≤ ((n + k : Int) : ℚ) := by push_cast; linarith [Int.floor_le y]
    have h2 : ⌊y⌋ ≤ n + k := by exact_mod_cast h2
    constructor <;> omega
  · have h1 : ⌈y⌉ ≤ n + k := Int.ceil_le.2 (by push_cast; linarith)
    have h2 : ((n - k : Int) : ℚ) ≤ ((⌈y⌉ : Int) : ℚ) := by push_cast; linarith [Int.le_ceil y]
    have h2 : n - k ≤ ⌈y⌉ := by exact_mod_cast h2
    constructor <;> omega

/-- Counts below `2^53`: division, product and truncation lose at most one unit. -/
theorem back_one {D n : Int} (hD : 0 < D) (hn : |n| < 2 ^ 53) : |trunc (rn (toDouble D n * D)) - n| ≤ 1 := by
  apply trunc_near
  have hD' : (0 : ℚ) < D := by exact_mod_cast hD
  have hn' : |(n : ℚ)| ≤ 2 ^ 53 := by exact_mod_cast hn.le
  unfold toDouble
  rw [rn_int hn.le]
  have h := rn_err ((n : ℚ) / D)
  have hp : |rn ((n : ℚ) / D) * D - n| ≤ 1 := by
    have e : rn ((n : ℚ) / D) * D - n = (rn ((n : ℚ) / D) - n / D) * D := by field_simp
    rw [e, abs_mul, abs_of_pos hD']
    calc _ ≤ |(n : ℚ) / D| / 2 ^ 53 * D := by gcongr
      _ = |(n : ℚ)| / 2 ^ 53 := by rw [abs_div, abs_of_pos hD']; field_simp
      _ ≤ 1 := by rw [div_le_one (by norm_num)]; exact hn'
  rw [abs_le] at hp
  have l := rn_mono (show ((n - 1 : Int) : ℚ) ≤ rn ((n : ℚ) / D) * D by push_cast; linarith [hp.1])
  have u := rn_mono (show rn ((n : ℚ) / D) * D ≤ ((n + 1 : Int) : ℚ) by push_cast; linarith [hp.2])
  rw [abs_lt] at hn
  rw [rn_int (abs_le.2 ⟨by omega, by omega⟩)] at l u
  push_cast at l u ⊢
  rw [abs_le]
  constructor <;> linarith

/-- Numbers with 53 bits from `2^52` units on are multiples of the unit. -/
theorem rep_mult {a : ℚ} (ha : Rep a) (k : Int) (h : 2 ^ 52 * (2 : ℚ) ^ k ≤ |a|) : ∃ m : Int, a = m * 2 ^ k := by
  obtain ⟨m, e, hm, rfl⟩ := ha
  by_cases hk : k ≤ e
  · obtain ⟨d, rfl⟩ := Int.le.dest hk
    exact ⟨m * 2 ^ d, by rw [zpow_add₀ (by norm_num)]; push_cast; rw [zpow_natCast]; ring⟩
  · -- then `a` is exactly `2^52` units
    have he : e ≤ k - 1 := by omega
    have h1 : (2 : ℚ) ^ e ≤ 2 ^ (k - 1) := zpow_le_zpow_right₀ (by norm_num) he
    have h2 : (2 : ℚ) ^ k = 2 * 2 ^ (k - 1) := by
      rw [show k = (k - 1) + 1 by ring, zpow_add₀ (by norm_num)]; ring_nf
    have hm' : |(m : ℚ)| ≤ 2 ^ 53 := by exact_mod_cast hm
    have hp : (0 : ℚ) < 2 ^ e := by positivity
    have ha : |(m : ℚ) * 2 ^ e| = 2 ^ 52 * 2 ^ k := by
      apply le_antisymm _ h
      rw [abs_mul, abs_of_pos hp, h2]
      calc |(m : ℚ)| * 2 ^ e ≤ 2 ^ 53 * 2 ^ (k - 1) := by gcongr
        _ = _ := by ring
    rcases abs_eq (by positivity) |>.1 ha with h | h
    · exact ⟨2 ^ 52, by rw [h]; push_cast; ring⟩
    · exact ⟨-2 ^ 52, by rw [h]; push_cast; ring⟩

/-- Larger counts, up to `2^53` units of `2^k`, `k ≥ 1`: at most one and a half units are lost. -/
theorem back_many {D n : Int} (hD : 0 < D) {k : ℕ} (hn : |n| ≤ (2 ^ 53 - 1) * 2 ^ (k + 1)) :
    |trunc (rn (toDouble D n * D)) - n| ≤ 3 * 2 ^ k := by
  apply trunc_near
  have hD' : (0 : ℚ) < D := by exact_mod_cast hD
  set u : ℚ := (2 : ℚ) ^ ((k + 1 : ℕ) : Int) with hu
  have hu' : u = 2 * 2 ^ k := by rw [hu, zpow_natCast, pow_succ]; ring
  have hup : 0 < u := by rw [hu']; positivity
  have hnq : |(n : ℚ)| ≤ (2 ^ 53 - 1) * u := by
    rw [hu']; calc |(n : ℚ)| ≤ (((2 ^ 53 - 1) * 2 ^ (k + 1) : Int) : ℚ) := by exact_mod_cast hn
      _ = _ := by push_cast; ring
  unfold toDouble
  -- the conversion of the count
  have c1 : |rn (n : ℚ) - n| ≤ u / 2 := rn_abs _ (by rw [← hu]; linarith)
  have hrep : ∀ m : Int, |m| ≤ 2 ^ 53 → rn (m * u) = m * u := fun m hm => rn_rep ⟨m, _, hm, rfl⟩
  have ha : |rn (n : ℚ)| ≤ (2 ^ 53 - 1) * u := by
    have e := hrep (2 ^ 53 - 1) (by norm_num)
    have e' := hrep (-(2 ^ 53 - 1)) (by norm_num)
    push_cast at e e'
    rw [abs_le] at hnq ⊢
    constructor
    · have := rn_mono (show -9007199254740991 * u ≤ (n : ℚ) by linarith [hnq.1])
      linarith
    · have := rn_mono (show (n : ℚ) ≤ 9007199254740991 * u by linarith [hnq.2])
      linarith
  set a := rn (n : ℚ) with had
  -- the quotient
  have hp : |rn (a / D) * D - a| ≤ |a| / 2 ^ 53 := by
    have e : rn (a / D) * D - a = (rn (a / D) - a / D) * D := by field_simp
    rw [e, abs_mul, abs_of_pos hD']
    calc _ ≤ |a / D| / 2 ^ 53 * D := by gcongr; exact rn_err _
      _ = |a| / 2 ^ 53 := by rw [abs_div, abs_of_pos hD']; field_simp
  -- the product
  have hq : |rn (rn (a / D) * D) - a| ≤ u := by
    by_cases hs : 2 ^ 52 * u ≤ |a|
    · obtain ⟨m, hm⟩ := rep_mult (rep_rn (n : ℚ)) _ hs
      rw [← had, ← hu] at hm
      have hmb : |m| ≤ 2 ^ 53 - 1 := by
        rw [hm, abs_mul, abs_of_pos hup] at ha
        have : |(m : ℚ)| ≤ 2 ^ 53 - 1 := le_of_mul_le_mul_right ha hup
        exact_mod_cast this
      have hp' : |rn (a / D) * D - a| ≤ u := by
        refine hp.trans ?_
        rw [div_le_iff₀ (by norm_num)]; linarith
      rw [abs_le] at hp' hmb ⊢
      have l := rn_mono (show ((m - 1 : Int) : ℚ) * u ≤ rn (a / D) * D by push_cast; linarith [hp'.1])
      have r := rn_mono (show rn (a / D) * D ≤ ((m + 1 : Int) : ℚ) * u by push_cast; linarith [hp'.2])
      rw [hrep _ (abs_le.2 ⟨by omega, by omega⟩)] at l r
      push_cast at l r
      constructor <;> linarith
    · have hp' : |rn (a / D) * D - a| ≤ u / 2 := by
        refine hp.trans ?_
        rw [div_le_iff₀ (by norm_num)]; linarith
      have h := rn_nearest (rn (a / D) * D) (rep_rn (n : ℚ))
      rw [← had, abs_sub_comm a] at h
      calc _ = |(rn (rn (a / D) * D) - rn (a / D) * D) + (rn (a / D) * D - a)| := by ring_nf
        _ ≤ _ := abs_add_le _ _
        _ ≤ u := by linarith
  push_cast
  calc _ = |(rn (rn (a / D) * D) - a) + (a - n)| := by ring_nf
    _ ≤ _ := abs_add_le _ _
    _ ≤ u + u / 2 := add_le_add hq c1
    _ = 3 * 2 ^ k := by rw [hu']; ring

theorem toDouble_mono {D n m : Int} (hD : 0 < D) (h : n ≤ m) : toDouble D n ≤ toDouble D m := by
  have hD' : (0 : ℚ) < D := by exact_mod_cast hD
  unfold toDouble
  apply rn_mono
  have : rn (n : ℚ) ≤ rn (m : ℚ) := rn_mono (by exact_mod_cast h)
  gcongr

/-- Reading a date: the count in days, where the 64-bit arithmetic is defined. -/
theorem julianD_inv {e : Int} {jt : JulianType} {x : ℚ} (h : julianD e jt = .ok x) :
    x = toDouble 86400000000 (e - y2kOffset + offset jt) ∧ fits64 (e - y2kOffset) ∧ fits64 (e - y2kOffset + offset jt) := by
  by_cases h1 : fits64 (e - y2kOffset)
  · by_cases h2 : fits64 (e - y2kOffset + offset jt)
    · refine ⟨?_, h1, h2⟩
      cases jt <;> simp only [julianD, offset, chk64] at h h2 ⊢ <;> simp_all
    · cases jt <;> simp only [julianD, offset, chk64] at h h2 <;> simp_all
  · cases jt <;> simp only [julianD, chk64] at h <;> simp_all

/-- A defined construction. -/
theorem ofJulianD_ok {x : ℚ} {jt : JulianType} {n : Int} (h : trunc (rn (x * (86400000000 : Int))) = n)
    (hn : |n| ≤ 2 ^ 62) : ofJulianD x jt = .ok (y2kOffset + n - offset jt) := by
  rw [abs_le] at hn
  have h1 : fromDouble 86400000000 x = .ok n := by unfold fromDouble; rw [h]; exact chk64_ok ⟨by omega, by omega⟩
  have h2 : tpFromDaysD x = .ok (y2kOffset + n) := by
    unfold tpFromDaysD; rw [h1, Res.ok_bind]; exact chk64_ok (by unfold y2kOffset; constructor <;> omega)
  cases jt <;> simp only [ofJulianD, h2, Res.ok_bind, offset]
  · simp
  · exact chk64_ok (by unfold y2kOffset mjdOffset; constructor <;> omega)
  · exact chk64_ok (by unfold y2kOffset jdOffset; constructor <;> omega)

/-! ## C67: Julian dates in double precision -/

/-- **C67** While the date is less than `2^53` microseconds from day zero of its calendar, an epoch made from the date read
off another one is at most one microsecond away from it. -/
theorem C67_roundtrip (e : Int) (jt : JulianType) (x : ℚ) (hx : julianD e jt = .ok x)
    (hn : |e - y2kOffset + offset jt| < 2 ^ 53) : ∃ e', ofJulianD x jt = .ok e' ∧ |e' - e| ≤ 1 := by
  obtain ⟨rfl, -, -⟩ := julianD_inv hx
  have h := back_one (D := 86400000000) (by norm_num) hn
  refine ⟨_, ofJulianD_ok rfl ?_, ?_⟩
  · rw [abs_lt] at hn; rw [abs_le] at h ⊢; constructor <;> omega
  · rw [abs_le] at h ⊢; constructor <;> omega

/-- **C67** Farther from day zero, up to `2^53` units of `2^(k+1)` microseconds, at most one and a half units are lost. -/
theorem C67_roundtrip_far (e : Int) (jt : JulianType) (x : ℚ) (hx : julianD e jt = .ok x) (k : ℕ) (hk : k ≤ 6)
    (hn : |e - y2kOffset + offset jt| ≤ (2 ^ 53 - 1) * 2 ^ (k + 1)) :
    ∃ e', ofJulianD x jt = .ok e' ∧ |e' - e| ≤ 3 * 2 ^ k := by
  obtain ⟨rfl, -, -⟩ := julianD_inv hx
  have h := back_many (D := 86400000000) (by norm_num) hn
  have h2 : (2 : Int) ^ k ≤ 2 ^ 6 := pow_le_pow_right₀ (by norm_num) hk
  refine ⟨_, ofJulianD_ok rfl ?_, ?_⟩
  · rw [pow_succ] at hn; rw [abs_le] at hn h ⊢; constructor <;> omega
  · rw [abs_le] at h ⊢; constructor <;> omega

/-- **C67** Julian dates from 4713 BC to the year 4000: 48 microseconds. -/
theorem C67_jd (e : Int) (x : ℚ) (hx : julianD e .JD = .ok x)
    (h0 : 0 ≤ e - y2kOffset + jdOffset) (h1 : e ≤ civilMicros 4000 1 1 0 0 0 0) :
    ∃ e', ofJulianD x .JD = .ok e' ∧ |e' - e| ≤ 48 := by
  have hc : civilMicros 4000 1 1 0 0 0 0 = 64060588800000000 := by decide +kernel
  rw [hc] at h1
  have := C67_roundtrip_far e .JD x hx 4 (by norm_num) (by
    unfold offset jdOffset y2kOffset at *; rw [abs_le]; constructor <;> norm_num <;> omega)
  simpa using this

/-- Modified Julian dates from 1900 to 2100. -/
example (e : Int) (x : ℚ) (hx : julianD e .MJD = .ok x) (h0 : civilMicros 1900 1 1 0 0 0 0 ≤ e)
    (h1 : e ≤ civilMicros 2100 1 1 0 0 0 0) : ∃ e', ofJulianD x .MJD = .ok e' ∧ |e' - e| ≤ 1 := by
  have a : civilMicros 1900 1 1 0 0 0 0 = -2208988800000000 := by decide +kernel
  have b : civilMicros 2100 1 1 0 0 0 0 = 4102444800000000 := by decide +kernel
  rw [a] at h0; rw [b] at h1
  exact C67_roundtrip e .MJD x hx (by
    show |e - 946684800000000 + 4453401600000000| < 2 ^ 53
    rw [abs_lt]; constructor <;> omega)

/-- **C67** The other way round: the date read off an epoch made from a double is less than three microseconds from it. -/
theorem C67_write (x : ℚ) (jt : JulianType) (hx : |x * 86400000000| ≤ 2 ^ 53 - 2) :
    ∃ e y, ofJulianD x jt = .ok e ∧ julianD e jt = .ok y ∧ |y - x| * 86400000000 < 3 := by
  set n := trunc (rn (x * (86400000000 : Int))) with hn
  have h1 : |rn (x * (86400000000 : Int)) - x * (86400000000 : Int)| ≤ 1 / 2 := by
    have := rn_abs (x := x * (86400000000 : Int)) 0 (by push_cast; norm_num at hx ⊢; linarith)
    simpa using this
  have h2 := trunc_err (rn (x * (86400000000 : Int)))
  rw [← hn] at h2
  push_cast at h1
  have hb : |(n : ℚ)| < 2 ^ 53 := by
    rw [abs_le] at hx h1; rw [abs_lt] at h2 ⊢; push_cast at h2; constructor <;> linarith [h2.1, h2.2, h1.1, h1.2, hx.1, hx.2]
  have hb' : |n| < 2 ^ 53 := by exact_mod_cast hb
  have hb2 := abs_lt.1 hb'
  refine ⟨_, toDouble 86400000000 n, ofJulianD_ok hn.symm (by rw [abs_le]; constructor <;> omega), ?_, ?_⟩
  · cases jt <;> simp only [julianD, offset]
    · rw [show y2kOffset + n - 0 - y2kOffset = n by ring, chk64_ok (by constructor <;> omega)]; rfl
    · rw [show y2kOffset + n - mjdOffset - y2kOffset = n - mjdOffset by ring,
        chk64_ok (by unfold mjdOffset; constructor <;> omega), Res.ok_bind, sub_add_cancel,
        chk64_ok (by constructor <;> omega)]; rfl
    · rw [show y2kOffset + n - jdOffset - y2kOffset = n - jdOffset by ring,
        chk64_ok (by unfold jdOffset; constructor <;> omega), Res.ok_bind, sub_add_cancel,
        chk64_ok (by constructor <;> omega)]; rfl
  · unfold toDouble
    rw [rn_int hb'.le]
    have h3 := rn_err ((n : ℚ) / (86400000000 : Int))
    rw [abs_div] at h3
    push_cast at h3 h2 ⊢
    rw [abs_of_pos (show (0 : ℚ) < 86400000000 by norm_num)] at h3
    have h4 : |rn ((n : ℚ) / 86400000000) - n / 86400000000| * 86400000000 ≤ 1 := by
      have : |(n : ℚ)| / 86400000000 / 2 ^ 53 * 86400000000 ≤ 1 := by
        rw [div_div, div_mul_eq_mul_div, div_le_one (by norm_num)]; linarith
      nlinarith
    have h5 : |rn ((n : ℚ) / 86400000000) - x| ≤ |rn ((n : ℚ) / 86400000000) - n / 86400000000| + |n / 86400000000 - x| := by
      rw [show rn ((n : ℚ) / 86400000000) - x = (rn ((n : ℚ) / 86400000000) - n / 86400000000) + (n / 86400000000 - x) by ring]
      exact abs_add_le _ _
    have h6 : |(n : ℚ) / 86400000000 - x| * 86400000000 < 3 / 2 := by
      rw [← abs_of_pos (show (0 : ℚ) < 86400000000 by norm_num), ← abs_mul, abs_of_pos (show (0 : ℚ) < 86400000000 by norm_num)]
      rw [abs_lt] at h2 ⊢
      rw [abs_le] at h1
      constructor
      · have : ((n : ℚ) / 86400000000 - x) * 86400000000 = n - x * 86400000000 := by field_simp
        rw [this]; linarith [h2.1, h1.1]
      · have : ((n : ℚ) / 86400000000 - x) * 86400000000 = n - x * 86400000000 := by field_simp
        rw [this]; linarith [h2.2, h1.2]
    linarith

example : ∃ e y, ofJulianD (123 / 10) .MJD2000 = .ok e ∧ julianD e .MJD2000 = .ok y ∧ |y - 123 / 10| * 86400000000 < 3 :=
  C67_write _ _ (by rw [abs_of_pos (by norm_num)]; norm_num)

/-- **C67** Later epochs do not have earlier dates. -/
theorem C67_monotone (e f : Int) (jt : JulianType) (x y : ℚ) (hx : julianD e jt = .ok x) (hy : julianD f jt = .ok y)
    (h : e ≤ f) : x ≤ y := by
  obtain ⟨rfl, -, -⟩ := julianD_inv hx
  obtain ⟨rfl, -, -⟩ := julianD_inv hy
  exact toDouble_mono (by norm_num) (by omega)

/-- **C67** Within 65536 days of day zero different epochs have different dates. -/
theorem C67_strict (e f : Int) (jt : JulianType) (x y : ℚ) (hx : julianD e jt = .ok x) (hy : julianD f jt = .ok y)
    (he : |e - y2kOffset + offset jt| ≤ 65536 * 86400000000) (hf : |f - y2kOffset + offset jt| ≤ 65536 * 86400000000)
    (h : e < f) : x < y := by
  obtain ⟨rfl, -, -⟩ := julianD_inv hx
  obtain ⟨rfl, -, -⟩ := julianD_inv hy
  have hh : e - y2kOffset + offset jt + 1 ≤ f - y2kOffset + offset jt := by omega
  generalize e - y2kOffset + offset jt = n at he hh ⊢
  generalize f - y2kOffset + offset jt = m at hf hh ⊢
  unfold toDouble
  rw [rn_int (he.trans (by norm_num)), rn_int (hf.trans (by norm_num))]
  have b : ∀ n : Int, |n| ≤ 65536 * 86400000000 →
      |rn ((n : ℚ) / (86400000000 : Int)) - n / (86400000000 : Int)| ≤ 2 ^ (-37 : Int) / 2 := by
    intro n hn
    apply rn_abs
    have : |(n : ℚ)| ≤ 65536 * 86400000000 := by exact_mod_cast hn
    rw [abs_div, div_le_iff₀ (by norm_num)]
    norm_num
    linarith
  have h1 := abs_le.1 (b n he)
  have h2 := abs_le.1 (b m hf)
  have h3 : (n : ℚ) / (86400000000 : Int) + 1 / 86400000000 ≤ m / (86400000000 : Int) := by
    have : (n : ℚ) + 1 ≤ m := by exact_mod_cast hh
    push_cast
    linarith
  have h4 : (2 : ℚ) ^ (-37 : Int) < 1 / 86400000000 := by norm_num
  linarith [h1.2, h2.1]

/-- **C67** Whole and half days are exact, reading and writing. -/
theorem C67_half_days (e : Int) (jt : JulianType) (h : Int) (he : e - y2kOffset + offset jt = h * 43200000000)
    (hh : |h| ≤ 100000000) : julianD e jt = .ok (h / 2) ∧ ofJulianD (h / 2) jt = .ok e := by
  rw [abs_le] at hh
  have hr : rn ((h * 43200000000 : Int) : ℚ) = (h * 43200000000 : Int) := by
    apply rn_rep
    refine ⟨h * 10546875, 12, by rw [abs_le]; constructor <;> omega, by push_cast; norm_num; ring⟩
  have hd : toDouble 86400000000 (h * 43200000000) = h / 2 := by
    unfold toDouble
    rw [hr, show ((h * 43200000000 : Int) : ℚ) / (86400000000 : Int) = h / 2 by push_cast; ring]
    exact rn_rep ⟨h, -1, by rw [abs_le]; constructor <;> omega, by norm_num; ring⟩
  constructor
  · cases jt <;> simp only [julianD, offset] at he ⊢
    · rw [chk64_ok (by constructor <;> omega), Res.ok_bind, ← hd, ← he, add_zero]
    · rw [chk64_ok (by unfold mjdOffset at he; constructor <;> omega), Res.ok_bind, he,
        chk64_ok (by constructor <;> omega), Res.ok_bind, hd]
    · rw [chk64_ok (by unfold jdOffset at he; constructor <;> omega), Res.ok_bind, he,
        chk64_ok (by constructor <;> omega), Res.ok_bind, hd]
  · rw [ofJulianD_ok (n := h * 43200000000) (by
      rw [show (h : ℚ) / 2 * (86400000000 : Int) = (h * 43200000000 : Int) by push_cast; ring, hr, trunc_int])
      (by rw [abs_le]; constructor <;> omega)]
    congr 1; omega

example : julianD y2kOffset .JD = .ok (4903089 / 2) ∧ ofJulianD (4903089 / 2) .JD = .ok y2kOffset :=
  C67_half_days y2kOffset .JD 4903089 (by decide) (by decide)

/-- **C67, not exact** Eleven seconds after 2000-01-01 the round trip through `mjd2000` loses a microsecond. -/
theorem C67_loses : ∃ x, julianD (y2kOffset + 11000000) .MJD2000 = .ok x ∧
    ofJulianD x .MJD2000 = .ok (y2kOffset + 10999999) := by
  have h1 : rn ((11000000 : Int) / (86400000000 : Int) : ℚ) = (4697087611361228 : Int) * 2 ^ (-65 : Int) :=
    rn_eval _ _ (by rw [abs_of_pos (by norm_num)]; norm_num) (by rw [abs_of_pos (by norm_num)]; norm_num)
      (by rw [abs_lt]; constructor <;> norm_num)
  have h2 : rn ((4697087611361228 : Int) * 2 ^ (-65 : Int) * (86400000000 : Int) : ℚ) =
      (5905580031999999 : Int) * 2 ^ (-29 : Int) :=
    rn_eval _ _ (by rw [abs_of_pos (by norm_num)]; norm_num) (by rw [abs_of_pos (by norm_num)]; norm_num)
      (by rw [abs_lt]; constructor <;> norm_num)
  have hd : toDouble 86400000000 11000000 = (4697087611361228 : Int) * 2 ^ (-65 : Int) := by
    unfold toDouble; rw [rn_int (by norm_num), h1]
  refine ⟨_, by simp only [julianD]; rw [add_sub_cancel_left, chk64_ok (by norm_num), Res.ok_bind, hd], ?_⟩
  rw [ofJulianD_ok (n := 10999999) (by
    rw [h2]; unfold trunc; rw [if_pos (by norm_num), Int.floor_eq_iff]; norm_num) (by norm_num)]
  rfl

/-- **C67** The bound of 48 microseconds for Julian dates is reached, in July 2015. -/
theorem C67_jd_reached : ∃ x, julianD (y2kOffset + 489613688366704) .JD = .ok x ∧
    ofJulianD x .JD = .ok (y2kOffset + 489613688366704 + 48) := by
  have h0 : rn ((212303058488366704 : Int) : ℚ) = (6634470577761460 : Int) * 2 ^ (5 : Int) :=
    rn_eval' _ _ (by rw [abs_of_pos (by norm_num)]; norm_num) (by rw [abs_of_pos (by norm_num)]; norm_num)
      (by
        have hf : ⌊((212303058488366704 : Int) : ℚ) / 2 ^ (5 : Int)⌋ = 6634470577761459 := by
          rw [Int.floor_eq_iff]; norm_num
        unfold rhe; rw [hf]; norm_num)
  have h1 : rn ((6634470577761460 : Int) * 2 ^ (5 : Int) / (86400000000 : Int) : ℚ) = (5276821140325870 : Int) * 2 ^ (-31 : Int) :=
    rn_eval _ _ (by rw [abs_of_pos (by norm_num)]; norm_num) (by rw [abs_of_pos (by norm_num)]; norm_num)
      (by rw [abs_lt]; constructor <;> norm_num)
  have h2 : rn ((5276821140325870 : Int) * 2 ^ (-31 : Int) * (86400000000 : Int) : ℚ) =
      (6634470577761461 : Int) * 2 ^ (5 : Int) :=
    rn_eval _ _ (by rw [abs_of_pos (by norm_num)]; norm_num) (by rw [abs_of_pos (by norm_num)]; norm_num)
      (by rw [abs_lt]; constructor <;> norm_num)
  have hd : toDouble 86400000000 212303058488366704 = (5276821140325870 : Int) * 2 ^ (-31 : Int) := by
    unfold toDouble; rw [h0, h1]
  refine ⟨_, by
    simp only [julianD]
    rw [add_sub_cancel_left, chk64_ok (by norm_num), Res.ok_bind,
      show (489613688366704 + jdOffset : Int) = 212303058488366704 by decide, chk64_ok (by norm_num), Res.ok_bind, hd], ?_⟩
  rw [ofJulianD_ok (n := 212303058488366752) (by
    rw [h2]; unfold trunc; rw [if_pos (by norm_num), Int.floor_eq_iff]; norm_num) (by norm_num)]
  decide

/-- **C67** Beyond 65536 days (for `mjd`: from April 2038 on) there are different epochs with the same date. -/
theorem C67_collide : ∃ e f x, e ≠ f ∧ julianD e .MJD = .ok x ∧ julianD f .MJD = .ok x := by
  have h1 : rn ((5662310400000002 : Int) / (86400000000 : Int) : ℚ) = (4503599627370498 : Int) * 2 ^ (-36 : Int) :=
    rn_eval _ _ (by rw [abs_of_pos (by norm_num)]; norm_num) (by rw [abs_of_pos (by norm_num)]; norm_num)
      (by rw [abs_lt]; constructor <;> norm_num)
  have h2 : rn ((5662310400000003 : Int) / (86400000000 : Int) : ℚ) = (4503599627370498 : Int) * 2 ^ (-36 : Int) :=
    rn_eval _ _ (by rw [abs_of_pos (by norm_num)]; norm_num) (by rw [abs_of_pos (by norm_num)]; norm_num)
      (by rw [abs_lt]; constructor <;> norm_num)
  refine ⟨y2kOffset + 1208908800000002, y2kOffset + 1208908800000003, (4503599627370498 : Int) * 2 ^ (-36 : Int), by decide, ?_, ?_⟩
  · simp only [julianD]
    rw [add_sub_cancel_left, chk64_ok (by norm_num), Res.ok_bind,
      show (1208908800000002 + mjdOffset : Int) = 5662310400000002 by decide, chk64_ok (by norm_num), Res.ok_bind,
      toDouble, rn_int (by norm_num), h1]
  · simp only [julianD]
    rw [add_sub_cancel_left, chk64_ok (by norm_num), Res.ok_bind,
      show (1208908800000003 + mjdOffset : Int) = 5662310400000003 by decide, chk64_ok (by norm_num), Res.ok_bind,
      toDouble, rn_int (by norm_num), h2]

/-! ## C68: arithmetic of Python epochs -/

theorem addDays_inv {e : Int} {x : ℚ} {f : Int} (h : addDays e x = .ok f) :
    f = e + trunc (rn (x * (86400000000 : Int))) ∧ fromDouble 86400000000 x = .ok (trunc (rn (x * (86400000000 : Int)))) := by
  unfold addDays fromDouble add chk64 at *
  by_cases h1 : fits64 (trunc (rn (x * (86400000000 : Int))))
  · rw [if_pos h1, Res.ok_bind] at h
    rw [if_pos h1]
    by_cases h2 : fits64 (e + trunc (rn (x * (86400000000 : Int))))
    · rw [if_pos h2] at h; injection h with h; exact ⟨h.symm, rfl⟩
    · rw [if_neg h2] at h; cases h
  · rw [if_neg h1] at h; cases h

/-- **C68** Adding a number of days moves the epoch by this number of days, up to a microsecond and the rounding of the
product. -/
theorem C68_add_days (e : Int) (x : ℚ) (f : Int) (h : addDays e x = .ok f) :
    |((f - e : Int) : ℚ) - x * 86400000000| < 1 + |x * 86400000000| / 2 ^ 53 := by
  obtain ⟨rfl, -⟩ := addDays_inv h
  have h1 := trunc_err (rn (x * (86400000000 : Int)))
  have h2 := rn_err (x * (86400000000 : Int))
  rw [add_sub_cancel_left]
  push_cast at *
  calc _ = |((trunc (rn (x * 86400000000)) : ℚ) - rn (x * 86400000000)) + (rn (x * 86400000000) - x * 86400000000)| := by
        ring_nf
    _ ≤ _ := abs_add_le _ _
    _ < _ := add_lt_add_of_lt_of_le h1 h2

/-- **C68** Subtracting the same number of days leads back to the epoch. -/
theorem C68_sub_days (e : Int) (x : ℚ) (f : Int) (he : fits64 e) (h : addDays e x = .ok f) : subDays f x = .ok e := by
  obtain ⟨rfl, h1⟩ := addDays_inv h
  unfold subDays sub
  rw [h1, Res.ok_bind, add_sub_cancel_right]
  exact chk64_ok he

example : addDays y2kOffset 1 = .ok (y2kOffset + 86400000000) := by
  unfold addDays fromDouble
  rw [one_mul, rn_int (by norm_num), trunc_int, chk64_ok (by norm_num), Res.ok_bind]
  exact chk64_ok (by decide)

/-- **C68** A `timedelta` of less than `2^53` microseconds (285 years) moves the epoch by it, up to one microsecond. -/
theorem C68_timedelta_partial (e us : Int) (hus : |us| < 2 ^ 53) (he : |e| ≤ 2 ^ 62) :
    ∃ f, addDelta e us = .ok f ∧ |f - (e + us)| ≤ 1 := by
  have h := back_one (D := 1000000) (by norm_num) hus
  rw [abs_lt] at hus
  rw [abs_le] at h he
  refine ⟨e + trunc (rn (toDouble 1000000 us * (1000000 : Int))), ?_, by rw [abs_le]; constructor <;> omega⟩
  unfold addDelta fromDouble add
  rw [chk64_ok (by constructor <;> omega), Res.ok_bind, chk64_ok (by constructor <;> omega)]

/-- **C68** Subtraction of a `timedelta` undoes its addition. -/
theorem C68_timedelta_sub (e us : Int) (hus : |us| < 2 ^ 53) (he : |e| ≤ 2 ^ 62) :
    ∃ f, addDelta e us = .ok f ∧ subDelta f us = .ok e := by
  have h := back_one (D := 1000000) (by norm_num) hus
  rw [abs_lt] at hus
  rw [abs_le] at h he
  refine ⟨e + trunc (rn (toDouble 1000000 us * (1000000 : Int))), ?_, ?_⟩
  · unfold addDelta fromDouble add
    rw [chk64_ok (by constructor <;> omega), Res.ok_bind, chk64_ok (by constructor <;> omega)]
  · unfold subDelta fromDouble sub
    rw [chk64_ok (by constructor <;> omega), Res.ok_bind, add_sub_cancel_right, chk64_ok (by constructor <;> omega)]

/-- **C68** Whole seconds are added exactly. -/
theorem C68_seconds (e s : Int) (hs : |s| ≤ 9000000000) (he : |e| ≤ 2 ^ 62) :
    addDelta e (s * 1000000) = .ok (e + s * 1000000) := by
  rw [abs_le] at hs he
  have hr : rn ((s * 1000000 : Int) : ℚ) = (s * 1000000 : Int) := rn_int (by rw [abs_le]; constructor <;> omega)
  have hd : toDouble 1000000 (s * 1000000) = s := by
    unfold toDouble
    rw [hr, show ((s * 1000000 : Int) : ℚ) / (1000000 : Int) = s by push_cast; ring]
    exact rn_int (by rw [abs_le]; constructor <;> omega)
  unfold addDelta fromDouble add
  rw [hd, show (s : ℚ) * (1000000 : Int) = (s * 1000000 : Int) by push_cast; ring, hr, trunc_int,
    chk64_ok (by constructor <;> omega), Res.ok_bind, chk64_ok (by constructor <;> omega)]

/-- **C68, not exact** `epoch + timedelta(microseconds=249)` is 248 microseconds later, whatever the epoch. -/
theorem C68_loses (e : Int) (he : |e| ≤ 2 ^ 62) : addDelta e 249 = .ok (e + 248) := by
  have h1 : rn ((249 : Int) / (1000000 : Int) : ℚ) = (4593239274353678 : Int) * 2 ^ (-64 : Int) :=
    rn_eval _ _ (by rw [abs_of_pos (by norm_num)]; norm_num) (by rw [abs_of_pos (by norm_num)]; norm_num)
      (by rw [abs_lt]; constructor <;> norm_num)
  have h2 : rn ((4593239274353678 : Int) * 2 ^ (-64 : Int) * (1000000 : Int) : ℚ) =
      (8760908650119167 : Int) * 2 ^ (-45 : Int) :=
    rn_eval _ _ (by rw [abs_of_pos (by norm_num)]; norm_num) (by rw [abs_of_pos (by norm_num)]; norm_num)
      (by rw [abs_lt]; constructor <;> norm_num)
  have h3 : trunc ((8760908650119167 : Int) * 2 ^ (-45 : Int) : ℚ) = 248 := by
    unfold trunc; rw [if_pos (by norm_num), Int.floor_eq_iff]; norm_num
  rw [abs_le] at he
  unfold addDelta fromDouble add toDouble
  rw [rn_int (by norm_num), h1, h2, h3, chk64_ok (by norm_num), Res.ok_bind, chk64_ok (by constructor <;> omega)]

/-- **C68** A naive `datetime`, taken as UTC, becomes exactly its instant. -/
theorem C68_datetime_partial (t : DateTime) (h : t.Valid) :
    ofDatetime t = .ok (civilMicros t.year t.month t.day t.hour t.minute t.second t.microsecond) := by
  obtain ⟨hy, hd, hh, hm, hs, hu⟩ := h
  unfold ofDatetime
  rw [C03_calendar _ _ _ _ _ _ _ _ ⟨by omega, by omega⟩ hd ⟨by omega, by omega⟩ ⟨by omega, by omega⟩ ⟨by omega, by omega⟩
    ⟨by omega, by omega⟩ ⟨by omega, by omega⟩]
  simp

/-- **C68, aware `datetime`s** The offset from UTC is ignored: for every offset other than zero the epoch is not the instant
of the `datetime`. -/
theorem C68_aware (t : DateTime) (h : t.Valid) (o : Int) (_ht : t.utcoffset = some o) (ho : o ≠ 0) :
    ofDatetime t ≠ .ok (civilMicros t.year t.month t.day t.hour t.minute t.second t.microsecond - o) := by
  rw [C68_datetime_partial t h]
  intro hc
  injection hc with hc
  omega

/-- Noon of the first of January 2000, two hours east. -/
example : ∃ t : DateTime, t.Valid ∧ t.utcoffset = some 7200000000 :=
  ⟨⟨2000, 1, 1, 12, 0, 0, 0, some 7200000000⟩, by unfold DateTime.Valid; decide, rfl⟩

end Kep3.Epoch
