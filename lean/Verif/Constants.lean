import Mathlib.Analysis.SpecialFunctions.Trigonometric.Basic

/-!
# Constants, include/kep3/core_astro/constants.hpp:26-41

As exact reals (the decimal literal of the source, not its rounding to a double).
-/

namespace Kep3

/-- `G0`, include/kep3/core_astro/constants.hpp:40. -/
noncomputable def G0 : ℝ := 9.80665
/-- `AU`, include/kep3/core_astro/constants.hpp:27. -/
noncomputable def AU : ℝ := 149597870700
/-- `MU_SUN`, include/kep3/core_astro/constants.hpp:29. -/
noncomputable def MU_SUN : ℝ := 1.32712440041279419e20
/-- `DAY2SEC`, include/kep3/core_astro/constants.hpp:37. -/
noncomputable def DAY2SEC : ℝ := 86400
/-- `SEC2DAY`, include/kep3/core_astro/constants.hpp:38. -/
noncomputable def SEC2DAY : ℝ := 1 / DAY2SEC
/-- `DEG2RAD`, include/kep3/core_astro/constants.hpp:35. -/
noncomputable def DEG2RAD : ℝ := Real.pi / 180
/-- `RAD2DEG`, include/kep3/core_astro/constants.hpp:36. -/
noncomputable def RAD2DEG : ℝ := 180 / Real.pi

theorem G0_pos : 0 < G0 := by unfold G0; norm_num
theorem AU_pos : 0 < AU := by unfold AU; norm_num
theorem MU_SUN_pos : 0 < MU_SUN := by unfold MU_SUN; norm_num
theorem DAY2SEC_pos : 0 < DAY2SEC := by unfold DAY2SEC; norm_num

end Kep3
