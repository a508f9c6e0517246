import Verif.Constants
import Mathlib.Analysis.Real.Pi.Bounds

/-!
# The constants of the Python module (C57)
-/

namespace Kep3.PyConst
open Real

/-- `CAVENDISH`, include/kep3/core_astro/constants.hpp:28. -/
noncomputable def CAVENDISH : ℝ := 6.67430e-11
/-- `MU_EARTH`, include/kep3/core_astro/constants.hpp:30. -/
noncomputable def MU_EARTH : ℝ := 398600435507000
/-- `MU_MOON`, include/kep3/core_astro/constants.hpp:31. -/
noncomputable def MU_MOON : ℝ := 4902800118000
/-- `EARTH_VELOCITY`, include/kep3/core_astro/constants.hpp:32. -/
noncomputable def EARTH_VELOCITY : ℝ := 29784.69183430911
/-- `EARTH_J2`, include/kep3/core_astro/constants.hpp:33. -/
noncomputable def EARTH_J2 : ℝ := 1.08262668E-03
/-- `EARTH_RADIUS`, include/kep3/core_astro/constants.hpp:34. -/
noncomputable def EARTH_RADIUS : ℝ := 6378137
/-- `DAY2YEAR`, include/kep3/core_astro/constants.hpp:39. -/
noncomputable def DAY2YEAR : ℝ := 1 / 365.25
/-- `CR3BP_EARTH_MOON`, include/kep3/core_astro/constants.hpp:41. -/
noncomputable def CR3BP_EARTH_MOON : ℝ := 0.01215058439470971

/-- The constants of the C++ library by name, include/kep3/core_astro/constants.hpp:25-41. -/
noncomputable def cpp : List (String × ℝ) :=
  [("pi", π), ("half_pi", π / 2), ("AU", AU), ("CAVENDISH", CAVENDISH), ("MU_SUN", MU_SUN), ("MU_EARTH", MU_EARTH),
   ("MU_MOON", MU_MOON), ("EARTH_VELOCITY", EARTH_VELOCITY), ("EARTH_J2", EARTH_J2), ("EARTH_RADIUS", EARTH_RADIUS),
   ("DEG2RAD", DEG2RAD), ("RAD2DEG", RAD2DEG), ("DAY2SEC", DAY2SEC), ("SEC2DAY", SEC2DAY), ("DAY2YEAR", DAY2YEAR), ("G0", G0),
   ("CR3BP_EARTH_MOON", CR3BP_EARTH_MOON)]

/-- A module: the value of each attribute. -/
abbrev Module := String → Option ℝ

/-- `m.attr(name) = py::float_(value)`. -/
def setattr (m : Module) (name : String) (value : ℝ) : Module := fun n => if n = name then some value else m n

/-- The attributes set in `PYBIND11_MODULE(core, m)`, pykep/core.cpp:54-67. -/
noncomputable def core : Module :=
  let m : Module := fun _ => none
  let m := setattr m "AU" AU
  let m := setattr m "CAVENDISH" CAVENDISH
  let m := setattr m "MU_SUN" MU_SUN
  let m := setattr m "MU_EARTH" MU_EARTH
  let m := setattr m "EARTH_VELOCITY" EARTH_VELOCITY
  let m := setattr m "EARTH_J2" EARTH_J2
  let m := setattr m "EARTH_RADIUS" EARTH_RADIUS
  let m := setattr m "RAD2DEG" RAD2DEG
  let m := setattr m "DEG2RAD" RAD2DEG
  let m := setattr m "DAY2SEC" DAY2SEC
  let m := setattr m "SEC2DAY" SEC2DAY
  let m := setattr m "DAY2YEAR" DAY2YEAR
  let m := setattr m "G0" G0
  let m := setattr m "CR3BP_EARTH_MOON" CR3BP_EARTH_MOON
  m

theorem setattr_some {m : Module} {name n : String} {v w : ℝ} (h : setattr m name v n = some w) :
    m n = some w ∨ (n = name ∧ w = v) := by
  unfold setattr at h
  split_ifs at h with he
  · exact .inr ⟨he, (Option.some.inj h).symm⟩
  · exact .inl h

/-- **C57**, without `DEG2RAD`: what Python sees under a name is the C++ constant of that name. -/
theorem C57_constants_partial (n : String) (v : ℝ) (h : core n = some v) (hn : n ≠ "DEG2RAD") : (n, v) ∈ cpp := by
  unfold core at h
  iterate 14
    obtain h | ⟨e1, e2⟩ := setattr_some h
    swap
    · first
        | exact absurd e1 hn
        | (subst e1; subst e2; simp [cpp]; done)
  simp at h

/-- The conversions of the C++ library undo each other. -/
theorem C57_cpp (a : ℝ) : a * DEG2RAD * RAD2DEG = a ∧ a * RAD2DEG * DEG2RAD = a ∧ a * DAY2SEC * SEC2DAY = a ∧
    a * SEC2DAY * DAY2SEC = a := by
  have := pi_ne_zero
  unfold DEG2RAD RAD2DEG SEC2DAY DAY2SEC
  refine ⟨?_, ?_, ?_, ?_⟩ <;> field_simp

/-- **C57**, negation: Python's `DEG2RAD` is not the C++ constant, and no angle but zero survives the conversion to radians and
back, nor has it the right value in radians. -/
theorem C57_deg2rad : ∃ d r, core "DEG2RAD" = some d ∧ core "RAD2DEG" = some r ∧ ("DEG2RAD", d) ∉ cpp ∧
    ∀ a : ℝ, a ≠ 0 → a * d * r ≠ a ∧ a * d ≠ a * DEG2RAD := by
  have h3 := pi_gt_three
  have h4 := pi_lt_four
  have hlt : DEG2RAD < RAD2DEG := by
    unfold DEG2RAD RAD2DEG
    rw [div_lt_div_iff₀ (by norm_num) (by linarith)]
    nlinarith
  have h1 : 1 < RAD2DEG := by
    unfold RAD2DEG
    rw [lt_div_iff₀ (by linarith)]
    linarith
  refine ⟨RAD2DEG, RAD2DEG, by simp [core, setattr], by simp [core, setattr], ?_, fun a ha => ⟨fun h => ?_, fun h => ?_⟩⟩
  · simp [cpp, hlt.ne']
  · have : RAD2DEG * RAD2DEG = 1 := mul_left_cancel₀ ha (by rw [← mul_assoc, h, mul_one])
    nlinarith
  · exact hlt.ne' (mul_left_cancel₀ ha h)

/-- The other conversions do in Python too. -/
theorem C57_days (a : ℝ) : ∃ d s, core "DAY2SEC" = some d ∧ core "SEC2DAY" = some s ∧ d = 86400 ∧ a * d * s = a := by
  refine ⟨DAY2SEC, SEC2DAY, by simp [core, setattr], by simp [core, setattr], rfl, (C57_cpp a).2.2.1⟩

/-- The velocity of the Earth is that of the circular orbit at one astronomical unit, to the last digit given. -/
theorem C57_earth_velocity : |EARTH_VELOCITY - √(MU_SUN / AU)| < 1e-10 := by
  have h1 : 29784.69183430911 - 1e-10 < √(MU_SUN / AU) := by
    rw [lt_sqrt (by norm_num)]; unfold MU_SUN AU; norm_num
  have h2 : √(MU_SUN / AU) < 29784.69183430911 + 1e-10 := by
    rw [sqrt_lt' (by norm_num)]; unfold MU_SUN AU; norm_num
  unfold EARTH_VELOCITY
  rw [abs_lt]
  constructor <;> linarith

end Kep3.PyConst
