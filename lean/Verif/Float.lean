import Mathlib.Data.Int.Log
import Mathlib.Algebra.Order.Field.Power
import Mathlib.Data.Rat.Floor
import Mathlib.Algebra.Order.Floor.Ring
import Mathlib.Tactic.Linarith
import Mathlib.Tactic.Positivity
import Mathlib.Tactic.FieldSimp
import Mathlib.Tactic.Ring

/-!
# Rounding to doubles

IEEE 754 binary64, round to nearest, ties to even, on rational or real numbers. The exponent range is not bounded here: overflow and
subnormal numbers are not modelled. `rn_nearest` ties the definition to the standard: the result is a number with 53 bits and no
such number is closer.
-/

namespace Kep3.Fl

variable {K : Type*} [Field K] [LinearOrder K] [IsStrictOrderedRing K] [FloorRing K]

/-- The nearest integer, ties to even. -/
def rhe (q : K) : Int :=
  if q - ⌊q⌋ < 1 / 2 then ⌊q⌋
  else if 1 / 2 < q - ⌊q⌋ then ⌊q⌋ + 1
  else if ⌊q⌋ % 2 = 0 then ⌊q⌋ else ⌊q⌋ + 1

/-- The unit of the last place of the binade of `x`. -/
def ulp (x : K) : K := 2 ^ (Int.log 2 |x| - 52)

/-- Rounding of a real operation to a double. -/
def rn (x : K) : K := if x = 0 then 0 else rhe (x / ulp x) * ulp x

/-- Numbers with at most 53 bits. -/
def Rep (x : K) : Prop := ∃ m e : Int, |m| ≤ 2 ^ 53 ∧ x = m * (2 : K) ^ e

theorem ulp_pos (x : K) : 0 < ulp x := by unfold ulp; positivity

theorem rhe_err (q : K) : |rhe q - q| ≤ 1 / 2 := by
  have h1 := Int.floor_le q
  have h2 := Int.lt_floor_add_one q
  unfold rhe
  rw [abs_le]
  split_ifs <;> push_cast <;> constructor <;> linarith

theorem rhe_int (n : Int) : rhe (n : K) = n := by
  unfold rhe
  rw [Int.floor_intCast]
  simp

theorem rhe_mono {p q : K} (h : p ≤ q) : rhe p ≤ rhe q := by
  have hf := Int.floor_le_floor h
  rcases hf.lt_or_eq with hl | he
  · have : rhe p ≤ ⌊p⌋ + 1 := by unfold rhe; split_ifs <;> omega
    have : ⌊q⌋ ≤ rhe q := by unfold rhe; split_ifs <;> omega
    omega
  · unfold rhe
    rw [← he]
    split_ifs <;> first | omega | (exfalso; linarith)

theorem rhe_neg (q : K) : rhe (-q) = -rhe q := by
  by_cases hz : q = ⌊q⌋
  · rw [hz]
    rw [show -((⌊q⌋ : K)) = ((-⌊q⌋ : Int) : K) by push_cast; ring, rhe_int, rhe_int]
  · have h1 : (⌊q⌋ : K) < q := lt_of_le_of_ne (Int.floor_le q) fun h => hz h.symm
    have h2 := Int.lt_floor_add_one q
    have hf : ⌊-q⌋ = -⌊q⌋ - 1 := by
      rw [Int.floor_eq_iff]; push_cast; constructor <;> linarith
    unfold rhe
    rw [hf]
    push_cast
    split_ifs <;> first | omega | (exfalso; linarith)

theorem ulp_neg (x : K) : ulp (-x) = ulp x := by unfold ulp; rw [abs_neg]

theorem rn_neg (x : K) : rn (-x) = -rn x := by
  unfold rn
  by_cases h : x = 0
  · simp [h]
  · rw [if_neg h, if_neg (neg_ne_zero.2 h), ulp_neg, neg_div, rhe_neg]
    push_cast; ring

theorem rn_zero : rn (0 : K) = 0 := by simp [rn]

/-- `x` is in its binade. -/
theorem le_abs {x : K} (h : x ≠ 0) : 2 ^ 52 * ulp x ≤ |x| := by
  have := Int.zpow_log_le_self (b := 2) (by norm_num) (abs_pos.2 h)
  unfold ulp
  calc (2 : K) ^ 52 * 2 ^ (Int.log 2 |x| - 52) = 2 ^ (52 : ℤ) * 2 ^ (Int.log 2 |x| - 52) := by norm_cast
    _ = 2 ^ Int.log 2 |x| := by rw [← zpow_add₀ (by norm_num)]; congr 1; ring
    _ ≤ |x| := by exact_mod_cast this

theorem abs_lt' (x : K) : |x| < 2 ^ 53 * ulp x := by
  have := Int.lt_zpow_succ_log_self (b := 2) (by norm_num) |x|
  unfold ulp
  calc |x| < 2 ^ (Int.log 2 |x| + 1) := by exact_mod_cast this
    _ = 2 ^ (53 : ℤ) * 2 ^ (Int.log 2 |x| - 52) := by rw [← zpow_add₀ (by norm_num)]; congr 1; ring
    _ = (2 : K) ^ 53 * 2 ^ (Int.log 2 |x| - 52) := by norm_cast

theorem rn_ulp (x : K) : |rn x - x| ≤ ulp x / 2 := by
  have hu := ulp_pos x
  by_cases h : x = 0
  · rw [h, rn_zero]; have := ulp_pos (0 : K); simp; linarith
  · unfold rn
    rw [if_neg h]
    have := rhe_err (x / ulp x)
    rw [show (rhe (x / ulp x) : K) * ulp x - x = (rhe (x / ulp x) - x / ulp x) * ulp x by field_simp, abs_mul, abs_of_pos hu]
    nlinarith

/-- The relative error of one operation. -/
theorem rn_err (x : K) : |rn x - x| ≤ |x| / 2 ^ 53 := by
  by_cases h : x = 0
  · simp [h, rn_zero]
  · have h1 := rn_ulp x
    have h2 := le_abs h
    rw [le_div_iff₀ (by positivity)]
    linarith

/-- Integers of up to 53 bits are doubles. -/
theorem rn_rep {x : K} (h : Rep x) : rn x = x := by
  obtain ⟨m, e, hm, rfl⟩ := h
  by_cases h0 : (m : K) * 2 ^ e = 0
  · rw [h0, rn_zero]
  have hm0 : (m : K) ≠ 0 := left_ne_zero_of_mul h0
  unfold rn
  rw [if_neg h0]
  set x : K := m * 2 ^ e with hx
  -- the exponent of the last place is at most `e`, or `m` is even
  have key : ∃ k : Int, x = k * ulp x := by
    have h1 := le_abs h0
    have hax : |x| = |(m : K)| * 2 ^ e := by rw [hx, abs_mul, abs_of_pos (by positivity : (0 : K) < 2 ^ e)]
    have hm' : |(m : K)| ≤ 2 ^ 53 := by exact_mod_cast hm
    unfold ulp at h1 ⊢
    set E := Int.log 2 |x| - 52 with hE
    have h2 : (2 : K) ^ (52 + E) ≤ 2 ^ (53 + e) := by
      rw [zpow_add₀ (by norm_num), zpow_add₀ (by norm_num)]
      calc (2 : K) ^ (52 : ℤ) * 2 ^ E = 2 ^ 52 * 2 ^ E := by norm_cast
        _ ≤ |x| := h1
        _ ≤ 2 ^ 53 * 2 ^ e := by rw [hax]; exact mul_le_mul_of_nonneg_right hm' (by positivity)
        _ = 2 ^ (53 : ℤ) * 2 ^ e := by norm_cast
    have h3 : 52 + E ≤ 53 + e := (zpow_le_zpow_iff_right₀ (by norm_num)).1 h2
    rcases (by omega : E ≤ e ∨ E = e + 1) with h | h
    · refine ⟨m * 2 ^ (e - E).toNat, ?_⟩
      push_cast
      rw [hx, mul_assoc, ← zpow_natCast, Int.toNat_of_nonneg (by omega), ← zpow_add₀ (by norm_num)]
      congr 2; ring
    · -- then `|m| = 2 ^ 53`
      have h4 : (2 : K) ^ 53 ≤ |(m : K)| := by
        have h5 : (2 : K) ^ 52 * 2 ^ (e + 1) ≤ |(m : K)| * 2 ^ e := by rw [← hax, ← h]; exact h1
        rw [zpow_add_one₀ (by norm_num)] at h5
        have hp : (0 : K) < 2 ^ e := by positivity
        by_contra hc
        push Not at hc
        have := mul_lt_mul_of_pos_right hc hp
        linarith
      have h5 : |m| = 2 ^ 53 := le_antisymm hm (by exact_mod_cast h4)
      rw [h]
      rcases abs_eq (by norm_num) |>.1 h5 with h6 | h6
      · refine ⟨2 ^ 52, ?_⟩
        rw [hx, h6, zpow_add_one₀ (by norm_num)]; push_cast; ring
      · refine ⟨-2 ^ 52, ?_⟩
        rw [hx, h6, zpow_add_one₀ (by norm_num)]; push_cast; ring
  obtain ⟨k, hk⟩ := key
  have : x / ulp x = k := by rw [div_eq_iff (ulp_pos x).ne']; exact hk
  rw [this, rhe_int]
  exact hk.symm

theorem rn_int {n : Int} (h : |n| ≤ 2 ^ 53) : rn (n : K) = n := rn_rep ⟨n, 0, h, by simp⟩

theorem rep_rn (x : K) : Rep (rn x) := by
  unfold rn
  split_ifs with h
  · exact ⟨0, 0, by norm_num, by simp⟩
  · refine ⟨rhe (x / ulp x), Int.log 2 |x| - 52, ?_, rfl⟩
    have hu := ulp_pos x
    have h1 : |x / ulp x| ≤ 2 ^ 53 := by
      rw [abs_div, abs_of_pos hu, div_le_iff₀ hu]; exact (abs_lt' x).le
    rw [abs_le] at h1 ⊢
    constructor
    · have := rhe_mono h1.1
      rw [show (-2 ^ 53 : K) = ((-2 ^ 53 : Int) : K) by norm_num, rhe_int] at this
      exact this
    · have := rhe_mono h1.2
      rw [show (2 ^ 53 : K) = ((2 ^ 53 : Int) : K) by norm_num, rhe_int] at this
      exact this

/-- **IEEE 754.** No number with 53 bits is closer. -/
theorem rn_nearest (x : K) {z : K} (hz : Rep z) : |rn x - x| ≤ |z - x| := by
  by_cases h : x = 0
  · rw [h, rn_zero]; simp
  -- positive numbers
  have pos : ∀ x z : K, 0 < x → Rep z → |rn x - x| ≤ |z - x| := by
    intro x z hx hz
    have hu := ulp_pos x
    have hr : ∀ k : Int, |rn x - x| ≤ |k * ulp x - x| := by
      intro k
      unfold rn
      rw [if_neg hx.ne']
      have e : ∀ j : Int, (j : K) * ulp x - x = (j - x / ulp x) * ulp x := fun j => by field_simp
      rw [e, e, abs_mul, abs_mul]
      refine mul_le_mul_of_nonneg_right ?_ (abs_nonneg _)
      generalize x / ulp x = q
      have he := rhe_err q
      by_cases hk : k = rhe q
      · rw [hk]
      · have : (1 : K) ≤ |((k - rhe q : Int) : K)| := by
          rw [← Int.cast_abs]
          exact_mod_cast Int.one_le_abs (sub_ne_zero.2 hk)
        push_cast at this
        have h3 : |(k : K) - rhe q| ≤ |k - q| + |rhe q - q| := by
          rw [abs_sub_comm (rhe q : K) q]
          have := abs_sub_le (k : K) q (rhe q)
          exact this
        linarith
    by_cases hg : ∃ k : Int, z = k * ulp x
    · obtain ⟨k, rfl⟩ := hg; exact hr k
    · -- a finer number is below the binade
      have hb : z ≤ 2 ^ 52 * ulp x := by
        obtain ⟨m, e, hm, rfl⟩ := hz
        unfold ulp at hg ⊢
        set E := Int.log 2 |x| - 52
        by_cases hE : E ≤ e
        · refine absurd ⟨m * 2 ^ (e - E).toNat, ?_⟩ hg
          push_cast
          rw [mul_assoc, ← zpow_natCast, Int.toNat_of_nonneg (by omega), ← zpow_add₀ (by norm_num)]
          congr 2; ring
        · have h1 : (2 : K) ^ e ≤ 2 ^ (E - 1) := zpow_le_zpow_right₀ (by norm_num) (by omega)
          have hm' : (m : K) ≤ 2 ^ 53 := by exact_mod_cast (le_abs_self m).trans hm
          have hp : (0 : K) < 2 ^ e := by positivity
          calc (m : K) * 2 ^ e ≤ 2 ^ 53 * 2 ^ e := mul_le_mul_of_nonneg_right hm' hp.le
            _ ≤ 2 ^ 53 * 2 ^ (E - 1) := mul_le_mul_of_nonneg_left h1 (by positivity)
            _ = 2 ^ 52 * 2 ^ E := by rw [zpow_sub_one₀ (by norm_num)]; ring
      have h1 := le_abs hx.ne'
      rw [abs_of_pos hx] at h1
      have h2 := hr (2 ^ 52)
      push_cast at h2
      refine h2.trans ?_
      rw [abs_of_nonpos (by linarith), abs_of_nonpos (by linarith)]
      linarith
  rcases lt_or_gt_of_ne h with hn | hp
  · have := pos (-x) (-z) (neg_pos.2 hn) (by
      obtain ⟨m, e, hm, rfl⟩ := hz
      exact ⟨-m, e, by rwa [abs_neg], by push_cast; ring⟩)
    rw [rn_neg] at this
    rw [show -rn x - -x = -(rn x - x) by ring, abs_neg, show -z - -x = -(z - x) by ring, abs_neg] at this
    exact this
  · exact pos x z hp hz

theorem rn_nonneg {x : K} (h : 0 ≤ x) : 0 ≤ rn x := by
  unfold rn
  split_ifs
  · exact le_rfl
  · have hu := ulp_pos x
    have : rhe (0 : K) ≤ rhe (x / ulp x) := rhe_mono (by positivity)
    rw [show (0 : K) = ((0 : Int) : K) by norm_num, rhe_int] at this
    have : (0 : K) ≤ rhe (x / ulp x) := by exact_mod_cast this
    positivity

/-- Rounding keeps the order. -/
theorem rn_mono {x y : K} (h : x ≤ y) : rn x ≤ rn y := by
  have pos : ∀ x y : K, 0 < x → x ≤ y → rn x ≤ rn y := by
    intro x y hx h
    have hy := hx.trans_le h
    have hux := ulp_pos x
    have huy := ulp_pos y
    have hl : Int.log 2 |x| ≤ Int.log 2 |y| := by
      rw [abs_of_pos hx, abs_of_pos hy]; exact Int.log_mono_right hx h
    rcases hl.lt_or_eq with hl | he
    · -- a power of two in between
      have h1 : rn x ≤ 2 ^ 53 * ulp x := by
        have h2 := abs_lt' x
        rw [abs_of_pos hx] at h2
        unfold rn
        rw [if_neg hx.ne']
        refine mul_le_mul_of_nonneg_right ?_ hux.le
        have : rhe (x / ulp x) ≤ rhe ((2 ^ 53 : Int) : K) := rhe_mono (by
          rw [div_le_iff₀ hux]; push_cast; linarith)
        rw [rhe_int] at this
        exact_mod_cast this
      have h3 : 2 ^ 52 * ulp y ≤ rn y := by
        have h2 := le_abs hy.ne'
        rw [abs_of_pos hy] at h2
        unfold rn
        rw [if_neg hy.ne']
        refine mul_le_mul_of_nonneg_right ?_ huy.le
        have : rhe ((2 ^ 52 : Int) : K) ≤ rhe (y / ulp y) := rhe_mono (by
          rw [le_div_iff₀ huy]; push_cast; linarith)
        rw [rhe_int] at this
        exact_mod_cast this
      have h4 : 2 * ulp x ≤ ulp y := by
        unfold ulp
        calc (2 : K) * 2 ^ (Int.log 2 |x| - 52) = 2 ^ (Int.log 2 |x| - 52 + 1) := by rw [zpow_add_one₀ (by norm_num)]; ring
          _ ≤ 2 ^ (Int.log 2 |y| - 52) := zpow_le_zpow_right₀ (by norm_num) (by omega)
      linarith
    · have hu : ulp x = ulp y := by unfold ulp; rw [he]
      unfold rn
      rw [if_neg hx.ne', if_neg hy.ne', hu]
      refine mul_le_mul_of_nonneg_right ?_ huy.le
      exact_mod_cast rhe_mono (div_le_div_of_nonneg_right h huy.le)
  rcases lt_trichotomy x 0 with hx | rfl | hx
  · rcases lt_or_ge y 0 with hy | hy
    · have := pos (-y) (-x) (by linarith) (by linarith)
      rw [rn_neg, rn_neg] at this
      linarith
    · have h1 := rn_nonneg (x := -x) (by linarith)
      rw [rn_neg] at h1
      linarith [rn_nonneg hy]
  · rw [rn_zero]; exact rn_nonneg h
  · exact pos x y hx h

/-- Evaluation of a rounding: mantissa and exponent of the result. -/
theorem rn_eval' {x : K} (m e : Int) (h1 : 2 ^ 52 * (2 : K) ^ e ≤ |x|) (h2 : |x| < 2 ^ 53 * (2 : K) ^ e)
    (hm : rhe (x / 2 ^ e) = m) : rn x = m * 2 ^ e := by
  have he : (0 : K) < 2 ^ e := by positivity
  have hx : 0 < |x| := lt_of_lt_of_le (by positivity) h1
  have hl : Int.log 2 |x| = e + 52 := by
    apply le_antisymm
    · have : Int.log 2 |x| < e + 53 := by
        apply (Int.lt_zpow_iff_log_lt (b := 2) (by norm_num) hx).1
        rw [show ((2 : ℕ) : K) = 2 by norm_num, zpow_add₀ (by norm_num)]
        calc |x| < 2 ^ 53 * 2 ^ e := h2
          _ = 2 ^ e * 2 ^ (53 : ℤ) := by rw [mul_comm]; norm_cast
      omega
    · apply (Int.zpow_le_iff_le_log (b := 2) (by norm_num) hx).1
      rw [show ((2 : ℕ) : K) = 2 by norm_num, zpow_add₀ (by norm_num)]
      calc (2 : K) ^ e * 2 ^ (52 : ℤ) = 2 ^ 52 * 2 ^ e := by rw [mul_comm]; norm_cast
        _ ≤ |x| := h1
  have hu : ulp x = 2 ^ e := by unfold ulp; rw [hl]; congr 1; omega
  unfold rn
  rw [if_neg (abs_pos.1 hx), hu, hm]

/-- Evaluation of a rounding that is not a tie. -/
theorem rn_eval {x : K} (m e : Int) (h1 : 2 ^ 52 * (2 : K) ^ e ≤ |x|) (h2 : |x| < 2 ^ 53 * (2 : K) ^ e)
    (hm : |(m : K) - x / 2 ^ e| < 1 / 2) : rn x = m * 2 ^ e := by
  apply rn_eval' m e h1 h2
  have h := rhe_err (x / 2 ^ e)
  rw [abs_le] at h
  rw [abs_lt] at hm
  have a1 : (rhe (x / 2 ^ e) : K) < m + 1 := by linarith [h.2, hm.1]
  have a2 : (m : K) < rhe (x / 2 ^ e) + 1 := by linarith [h.1, hm.2]
  have b1 : rhe (x / 2 ^ e) < m + 1 := by exact_mod_cast a1
  have b2 : m < rhe (x / 2 ^ e) + 1 := by exact_mod_cast a2
  omega

/-- Absolute error of a rounding below `2^53` units. -/
theorem rn_abs {x : K} (e : Int) (h : |x| ≤ 2 ^ 53 * (2 : K) ^ e) : |rn x - x| ≤ 2 ^ e / 2 := by
  have he : (0 : K) < 2 ^ e := by positivity
  have hr := rhe_err (x / 2 ^ e)
  have hb : |rhe (x / 2 ^ e)| ≤ 2 ^ 53 := by
    have hx := abs_le.1 h
    have h1 : x / 2 ^ e ≤ ((2 ^ 53 : Int) : K) := by rw [div_le_iff₀ he]; push_cast; linarith [hx.2]
    have h2 : ((-2 ^ 53 : Int) : K) ≤ x / 2 ^ e := by rw [le_div_iff₀ he]; push_cast; linarith [hx.1]
    have a1 := rhe_mono h1
    have a2 := rhe_mono h2
    rw [rhe_int] at a1 a2
    exact abs_le.2 ⟨a2, a1⟩
  refine (rn_nearest x ⟨rhe (x / 2 ^ e), e, hb, rfl⟩).trans ?_
  have : (rhe (x / 2 ^ e) : K) * 2 ^ e - x = (rhe (x / 2 ^ e) - x / 2 ^ e) * 2 ^ e := by field_simp
  rw [this, abs_mul, abs_of_pos he]
  nlinarith

end Kep3.Fl
