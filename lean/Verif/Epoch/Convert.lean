import Verif.Epoch.Double

/-!
# C82: the conversions between Julian day numbers

The six inline functions of convert_julian_dates.hpp. Each is one addition or subtraction followed by a rounding `rnd`: the
identity for the exact value, `Fl.rn` for doubles.
-/

namespace Kep3.Epoch

open Fl

section
variable (rnd : ℚ → ℚ)

/-- `jd2mjd`, include/kep3/core_astro/convert_julian_dates.hpp:15-18. -/
def jd2mjd (x : ℚ) : ℚ := rnd (x - 24000005 / 10)
/-- `jd2mjd2000`, include/kep3/core_astro/convert_julian_dates.hpp:19-22. -/
def jd2mjd2000 (x : ℚ) : ℚ := rnd (x - 24515445 / 10)
/-- `mjd2jd`, include/kep3/core_astro/convert_julian_dates.hpp:23-26. -/
def mjd2jd (x : ℚ) : ℚ := rnd (x + 24000005 / 10)
/-- `mjd2mjd2000`, include/kep3/core_astro/convert_julian_dates.hpp:27-30. -/
def mjd2mjd2000 (x : ℚ) : ℚ := rnd (x - 51544)
/-- `mjd20002jd`, include/kep3/core_astro/convert_julian_dates.hpp:31-34. -/
def mjd20002jd (x : ℚ) : ℚ := rnd (x + 24515445 / 10)
/-- `mjd20002mjd`, include/kep3/core_astro/convert_julian_dates.hpp:35-38. -/
def mjd20002mjd (x : ℚ) : ℚ := rnd (x + 51544)

end

/-- **C82**: in exact arithmetic the conversions are those between the three day numbers of an epoch: each takes the day
number of every epoch in one scale to the one in the other. -/
theorem C82_epochs (e : Int) :
    jd2mjd id (jd e) = mjd e ∧ jd2mjd2000 id (jd e) = mjd2000 e ∧ mjd2jd id (mjd e) = jd e ∧
      mjd2mjd2000 id (mjd e) = mjd2000 e ∧ mjd20002jd id (mjd2000 e) = jd e ∧ mjd20002mjd id (mjd2000 e) = mjd e := by
  unfold jd2mjd jd2mjd2000 mjd2jd mjd2mjd2000 mjd20002jd mjd20002mjd jd mjd mjd2000 jdOffset mjdOffset
  push_cast
  simp only [id]
  refine ⟨?_, ?_, ?_, ?_, ?_, ?_⟩ <;> ring

/-- The difference of two doubles within a factor of two of each other is a double (Sterbenz). -/
theorem sterbenz {x c : ℚ} (hx : Rep x) (hc : Rep c) (hc0 : 0 < c) (h1 : c / 2 ≤ x) (h2 : x ≤ 2 * c) : Rep (x - c) := by
  have hx0 : 0 < x := by linarith
  have key : ∀ k : Int, 2 ^ 52 * (2 : ℚ) ^ k ≤ x → 2 ^ 52 * (2 : ℚ) ^ k ≤ c → |x - c| ≤ 2 ^ 53 * 2 ^ k → Rep (x - c) := by
    intro k hkx hkc hb
    obtain ⟨m, hm⟩ := rep_mult hx k (by rwa [abs_of_pos hx0])
    obtain ⟨n, hn⟩ := rep_mult hc k (by rwa [abs_of_pos hc0])
    have hk : (0 : ℚ) < 2 ^ k := by positivity
    refine ⟨m - n, k, ?_, by rw [hm, hn]; push_cast; ring⟩
    have : |((m - n : Int) : ℚ)| ≤ 2 ^ 53 := by
      rw [hm, hn, ← sub_mul, abs_mul, abs_of_pos hk] at hb
      push_cast
      exact le_of_mul_le_mul_right hb hk
    rw [← Int.cast_abs] at this
    exact_mod_cast this
  rcases le_total x c with h | h
  · have l := le_abs hx0.ne'
    have u := abs_lt' x
    rw [abs_of_pos hx0] at l u
    unfold ulp at l u
    refine key _ l (l.trans h) ?_
    rw [abs_of_nonpos (by linarith)]
    linarith
  · have l := le_abs hc0.ne'
    have u := abs_lt' c
    rw [abs_of_pos hc0] at l u
    unfold ulp at l u
    refine key _ (l.trans h) l ?_
    rw [abs_of_nonneg (by linarith)]
    linarith

theorem rep_mjd : Rep (24000005 / 10 : ℚ) := ⟨4800001, -1, by norm_num, by norm_num⟩
theorem rep_mjd2000 : Rep (24515445 / 10 : ℚ) := ⟨4903089, -1, by norm_num, by norm_num⟩
theorem rep_days : Rep (51544 : ℚ) := ⟨51544, 0, by norm_num, by norm_num⟩

/-- **C82**: with doubles, the conversions of Julian dates from 1300 BC to AD 8400 lose nothing: the result is exact, the way
back returns the very same double, and going through `mjd` or directly to `mjd2000` is the same. -/
theorem C82_from_jd {x : ℚ} (hx : Rep x) (h1 : 1250000 ≤ x) (h2 : x ≤ 4800000) :
    jd2mjd rn x = x - 24000005 / 10 ∧ jd2mjd2000 rn x = x - 24515445 / 10 ∧
      mjd2jd rn (jd2mjd rn x) = x ∧ mjd20002jd rn (jd2mjd2000 rn x) = x ∧
      mjd2mjd2000 rn (jd2mjd rn x) = jd2mjd2000 rn x ∧ mjd20002mjd rn (jd2mjd2000 rn x) = jd2mjd rn x := by
  have a : jd2mjd rn x = x - 24000005 / 10 :=
    rn_rep (sterbenz hx rep_mjd (by norm_num) (by linarith) (by linarith))
  have b : jd2mjd2000 rn x = x - 24515445 / 10 :=
    rn_rep (sterbenz hx rep_mjd2000 (by norm_num) (by linarith) (by linarith))
  refine ⟨a, b, ?_, ?_, ?_, ?_⟩
  · rw [a]; unfold mjd2jd; rw [sub_add_cancel]; exact rn_rep hx
  · rw [b]; unfold mjd20002jd; rw [sub_add_cancel]; exact rn_rep hx
  · rw [a]; unfold mjd2mjd2000 jd2mjd2000; congr 1; ring
  · rw [b]; unfold mjd20002mjd jd2mjd; congr 1; ring

/-- **C82**: to Julian dates, at most `2^-32` of a day (about 20 microseconds) is lost, and the way back loses no more. -/
theorem C82_to_jd {x : ℚ} :
    (-1100000 ≤ x → x ≤ 1700000 → |mjd2jd rn x - (x + 24000005 / 10)| ≤ 1 / 2 ^ 32 ∧
      |jd2mjd rn (mjd2jd rn x) - x| ≤ 1 / 2 ^ 32) ∧
    (-1100000 ≤ x → x ≤ 1700000 → |mjd20002jd rn x - (x + 24515445 / 10)| ≤ 1 / 2 ^ 32 ∧
      |jd2mjd2000 rn (mjd20002jd rn x) - x| ≤ 1 / 2 ^ 32) := by
  have key : ∀ c : ℚ, Rep c → 2400000 ≤ c → c ≤ 2460000 → -1100000 ≤ x → x ≤ 1700000 →
      |rn (x + c) - (x + c)| ≤ 1 / 2 ^ 32 ∧ |rn (rn (x + c) - c) - x| ≤ 1 / 2 ^ 32 := by
    intro c hc c1 c2 h1 h2
    have e := rn_abs (x := x + c) (-31) (by rw [abs_of_nonneg (by linarith)]; norm_num; linarith)
    have e' : |rn (x + c) - (x + c)| ≤ 1 / 2 ^ 32 := by
      refine e.trans (le_of_eq ?_)
      norm_num
    refine ⟨e', ?_⟩
    have b := abs_le.1 e'
    have hs : Rep (rn (x + c) - c) := by
      refine sterbenz (rep_rn _) hc (by linarith) ?_ ?_
      · have : (1 : ℚ) / 2 ^ 32 ≤ 1 := by norm_num
        linarith [b.1]
      · have : (1 : ℚ) / 2 ^ 32 ≤ 1 := by norm_num
        linarith [b.2]
    rw [rn_rep hs, show rn (x + c) - c - x = rn (x + c) - (x + c) by ring]
    exact e'
  exact ⟨key _ rep_mjd (by norm_num) (by norm_num), key _ rep_mjd2000 (by norm_num) (by norm_num)⟩

/-- **C82**: between `mjd` and `mjd2000` the conversion is exact for doubles of mid-1929 to early 2141 (`mjd` from 25772 to
103088), and so is the way back. -/
theorem C82_mjd2000 {x : ℚ} (hx : Rep x) (h1 : 25772 ≤ x) (h2 : x ≤ 103088) :
    mjd2mjd2000 rn x = x - 51544 ∧ mjd20002mjd rn (mjd2mjd2000 rn x) = x := by
  have a : mjd2mjd2000 rn x = x - 51544 := rn_rep (sterbenz hx rep_days (by norm_num) (by linarith) (by linarith))
  refine ⟨a, ?_⟩
  rw [a]; unfold mjd20002mjd; rw [sub_add_cancel]; exact rn_rep hx

/-- **C82**: later dates do not become earlier ones. -/
theorem C82_monotone {x y : ℚ} (h : x ≤ y) :
    jd2mjd rn x ≤ jd2mjd rn y ∧ jd2mjd2000 rn x ≤ jd2mjd2000 rn y ∧ mjd2jd rn x ≤ mjd2jd rn y ∧
      mjd2mjd2000 rn x ≤ mjd2mjd2000 rn y ∧ mjd20002jd rn x ≤ mjd20002jd rn y ∧ mjd20002mjd rn x ≤ mjd20002mjd rn y := by
  refine ⟨?_, ?_, ?_, ?_, ?_, ?_⟩ <;> exact rn_mono (by linarith)

/-- **C82**: the bound of `C82_to_jd` is reached: a double just after 2000-01-01 becomes midnight when it goes through
Julian dates. -/
theorem C82_loses : ∃ x : ℚ, Rep x ∧ -1100000 ≤ x ∧ x ≤ 1700000 ∧ jd2mjd rn (mjd2jd rn x) = 51544 ∧
    x - 51544 = 1 / 2 ^ 32 := by
  refine ⟨51544 + 1 / 2 ^ 32, ⟨51544 * 2 ^ 32 + 1, -32, by norm_num, by norm_num⟩, by norm_num, by norm_num, ?_, by norm_num⟩
  have h : mjd2jd rn (51544 + 1 / 2 ^ 32) = 24515445 / 10 := by
    unfold mjd2jd
    rw [rn_eval' (4903089 * 2 ^ 30) (-31) (by rw [abs_of_pos] <;> norm_num) (by rw [abs_of_pos] <;> norm_num) ?_]
    · norm_num
    · rw [show (51544 + 1 / 2 ^ 32 + 24000005 / 10 : ℚ) / 2 ^ (-31 : ℤ) = (4903089 * 2 ^ 30 : Int) + 1 / 2 by norm_num]
      have hf : ⌊((4903089 * 2 ^ 30 : Int) : ℚ) + 1 / 2⌋ = 4903089 * 2 ^ 30 := by
        rw [Int.floor_intCast_add]; norm_num
      unfold rhe
      rw [hf]
      norm_num
  rw [h]
  unfold jd2mjd
  rw [show (24515445 / 10 - 24000005 / 10 : ℚ) = 51544 by norm_num]
  exact rn_rep rep_days

end Kep3.Epoch
