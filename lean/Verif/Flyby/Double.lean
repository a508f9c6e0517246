import Verif.FloatErr
import Verif.Flyby.Props28

/-!
# Fly-bys in double precision

`fb_con` and `fb_dv` of `src/core_astro/flyby.cpp` operation by operation, each result rounded, in the order C++ prescribes. The
library functions `std::acos`, `std::asin`, `std::cos` are parameters, assumed accurate to a few units in the last place and exact
where the C standard says so; square roots are correctly rounded (IEEE 754). Not modelled: overflow, underflow, and contraction of products and sums into fused
operations. `none`: NaN or infinity.
-/

namespace Kep3
open Real V3 Fl

/-- The arithmetic the code runs on. -/
structure Arith where
  /-- The rounding of an operation. -/
  rd : ℝ → ℝ
  /-- `std::acos` on [-1, 1]. -/
  acos : ℝ → ℝ
  /-- `std::asin` on [-1, 1]. -/
  asin : ℝ → ℝ
  /-- `std::cos`. -/
  cos : ℝ → ℝ

namespace Arith

/-- Arithmetic without rounding. -/
noncomputable def exact : Arith := ⟨id, arccos, arcsin, Real.cos⟩

/-- Doubles with a library accurate to four units in the last place of the largest values. -/
structure Double (A : Arith) : Prop where
  /-- Round to nearest, ties to even. -/
  rd : A.rd = rn
  acos : ∀ x, -1 ≤ x → x ≤ 1 → |A.acos x - arccos x| ≤ 1 / 2 ^ 50
  asin : ∀ x, -1 ≤ x → x ≤ 1 → |A.asin x - arcsin x| ≤ 1 / 2 ^ 50
  cos : ∀ x, |A.cos x - Real.cos x| ≤ 1 / 2 ^ 52
  /-- C standard, F.10.1.1. -/
  acos_one : A.acos 1 = 0
  /-- The range of `std::acos`. -/
  acos_mem : ∀ x, -1 ≤ x → x ≤ 1 → 0 ≤ A.acos x ∧ A.acos x ≤ rn π
  /-- The sign of `std::asin`. -/
  asin_nonneg : ∀ x, 0 ≤ x → x ≤ 1 → 0 ≤ A.asin x

variable (A : Arith)

/-- Rounded division. -/
noncomputable def div? (a b : ℝ) : Option ℝ := (Kep3.div? a b).map A.rd
/-- Rounded square root. -/
noncomputable def sqrt? (a : ℝ) : Option ℝ := (Kep3.sqrt? a).map A.rd
/-- `std::acos`, NaN outside its domain. -/
noncomputable def acos? (a : ℝ) : Option ℝ := if -1 ≤ a ∧ a ≤ 1 then some (A.acos a) else none
/-- `std::asin`, NaN outside its domain. -/
noncomputable def asin? (a : ℝ) : Option ℝ := if -1 ≤ a ∧ a ≤ 1 then some (A.asin a) else none

/-- `a[0] * b[0] + a[1] * b[1] + a[2] * b[2]`, src/core_astro/flyby.cpp:27-28, 33. -/
noncomputable def dot (a b : V3 ℝ) : ℝ := A.rd (A.rd (A.rd (a.x * b.x) + A.rd (a.y * b.y)) + A.rd (a.z * b.z))

end Arith

/-- The argument of `std::acos`, src/core_astro/flyby.cpp:33-34 and 54-55. -/
noncomputable def fbCosA (A : Arith) (vin vout : V3 ℝ) : Option ℝ := do
  let s ← A.sqrt? (A.rd (A.dot vin vin * A.dot vout vout))
  A.div? (A.dot vin vout) s

/-- The turn angle in excess of the largest one available, src/core_astro/flyby.cpp:31-35 and 52-56. -/
noncomputable def fbIneqA (A : Arith) (vin vout : V3 ℝ) (mu safe : ℝ) : Option ℝ := do
  let Vin2 := A.dot vin vin
  let q ← A.div? safe mu
  let e_min := A.rd (1 + A.rd (q * Vin2))
  let c ← fbCosA A vin vout
  let alpha ← A.acos? c
  let ie ← A.div? 1 e_min
  let d ← A.asin? ie
  return A.rd (alpha - A.rd (2 * d))

/-- `fb_con`, src/core_astro/flyby.cpp:24-37. -/
noncomputable def fbConA (A : Arith) (vin vout : V3 ℝ) (mu safe : ℝ) : ℝ × Option ℝ :=
  (A.rd (A.dot vin vin - A.dot vout vout), fbIneqA A vin vout mu safe)

/-- The branch of `fb_dv` for turns within reach, src/core_astro/flyby.cpp:62. -/
noncomputable def fbDvFeasA (A : Arith) (vin vout : V3 ℝ) : Option ℝ := do
  let so ← A.sqrt? (A.dot vout vout)
  let si ← A.sqrt? (A.dot vin vin)
  return |A.rd (so - si)|

/-- `fb_dv`, src/core_astro/flyby.cpp:45-65. The comparison with zero is false for a NaN. -/
noncomputable def fbDvA (A : Arith) (vin vout : V3 ℝ) (mu safe : ℝ) : Option ℝ :=
  let Vin2 := A.dot vin vin
  let Vout2 := A.dot vout vout
  match fbIneqA A vin vout mu safe with
  | some ineq =>
    if 0 < ineq then do
      let s ← A.sqrt? (A.rd (Vout2 * Vin2))
      A.sqrt? (A.rd (A.rd (Vout2 + Vin2) - A.rd (A.rd (2 * s) * A.cos ineq)))
    else fbDvFeasA A vin vout
  | none => fbDvFeasA A vin vout

/-! ## Without rounding this is the model of `Verif/Flyby/Model.lean` -/

theorem dot_exact (a b : V3 ℝ) : Arith.exact.dot a b = a.x * b.x + a.y * b.y + a.z * b.z := rfl

theorem fbIneqA_exact (vin vout : V3 ℝ) (mu safe : ℝ) : fbIneqA Arith.exact vin vout mu safe = fbIneq vin vout mu safe := by
  unfold fbIneqA fbCosA fbIneq Arith.div? Arith.sqrt? Arith.acos? Arith.asin? Arith.dot Arith.exact acos? asin?
  simp only [id, Option.map_id_fun, bind_assoc]

/-- `fbDvA` without rounding. -/
theorem fbDvA_exact (vin vout : V3 ℝ) (mu safe : ℝ) : fbDvA Arith.exact vin vout mu safe = some (fbDv vin vout mu safe) := by
  have hi : 0 ≤ vin.x * vin.x + vin.y * vin.y + vin.z * vin.z := dot_self_nonneg vin
  have ho : 0 ≤ vout.x * vout.x + vout.y * vout.y + vout.z * vout.z := dot_self_nonneg vout
  have hfe : fbDvFeasA Arith.exact vin vout = some |√(vout.x * vout.x + vout.y * vout.y + vout.z * vout.z) - √(vin.x * vin.x + vin.y * vin.y + vin.z * vin.z)| := by
    unfold fbDvFeasA Arith.sqrt?
    rw [dot_exact, dot_exact, sqrt?_ok hi, sqrt?_ok ho]
    rfl
  unfold fbDvA fbDv
  rw [fbIneqA_exact]
  dsimp only
  cases fbIneq vin vout mu safe with
  | none => exact hfe
  | some d =>
    dsimp only
    split_ifs
    · rw [dot_exact, dot_exact]
      set a := vin.x * vin.x + vin.y * vin.y + vin.z * vin.z
      set b := vout.x * vout.x + vout.y * vout.y + vout.z * vout.z
      have hr : 0 ≤ b + a - 2 * √(b * a) * Real.cos d := by
        have h1 : √(b * a) = √b * √a := sqrt_mul ho a
        have := Real.cos_le_one d
        have p := mul_nonneg (sqrt_nonneg b) (sqrt_nonneg a)
        rw [h1]
        nlinarith [sq_nonneg (√b - √a), sq_sqrt ho, sq_sqrt hi]
      unfold Arith.sqrt? Arith.exact
      simp only [id, Option.map_id_fun]
      rw [sqrt?_ok (mul_nonneg ho hi)]
      exact sqrt?_ok hr
    · exact hfe

/-! ## Error bounds -/

section Bounds
variable {A : Arith} (hA : A.Double)
include hA

theorem near_dot (v : V3 ℝ) : Near 3.03 (V3.dot v v) (A.dot v v) := by
  have h : ∀ t : ℝ, Near 1.01 (t * t) (rn (t * t)) := fun t => ((Near.exact (mul_self_nonneg t)).rn (by norm_num)).mono (by norm_num)
  have h1 := ((h v.x).add (h v.y)).rn (by norm_num)
  have h2 := (h1.add ((h v.z).mono (by norm_num) (by norm_num))).rn (by norm_num)
  unfold Arith.dot
  rw [hA.rd]
  exact h2.mono (by norm_num)

omit hA in
theorem sum_abs_le (v w : V3 ℝ) : |v.x * w.x| + |v.y * w.y| + |v.z * w.z| ≤ norm v * norm w := by
  have h := abs_dot_le ⟨|v.x|, |v.y|, |v.z|⟩ ⟨|w.x|, |w.y|, |w.z|⟩
  have e : ∀ a : V3 ℝ, norm (⟨|a.x|, |a.y|, |a.z|⟩ : V3 ℝ) = norm a := by
    intro a; simp [V3.norm, V3.dot]
  rw [e, e] at h
  refine le_trans (le_of_eq ?_) ((le_abs_self _).trans h)
  simp [V3.dot, abs_mul]

omit hA in
theorem sum_err (a b c : ℝ) : |rn (rn (rn a + rn b) + rn c) - (a + b + c)| ≤ 3.03 * u * (|a| + |b| + |c|) := by
  have hu := u_pos
  have hus := u_small
  have e1 := rn_err' a
  have e2 := rn_err' b
  have e3 := rn_err' c
  have e4 := rn_err' (rn a + rn b)
  have e5 := rn_err' (rn (rn a + rn b) + rn c)
  generalize rn (rn (rn a + rn b) + rn c) = z at *
  generalize rn (rn a + rn b) = y at *
  generalize rn a = a' at *
  generalize rn b = b' at *
  generalize rn c = c' at *
  have a0 := abs_nonneg a
  have b0 := abs_nonneg b
  have c0 := abs_nonneg c
  have k : ∀ t : ℝ, 0 ≤ t → u * t ≤ 0.001 * t := fun t ht => mul_le_mul_of_nonneg_right (by linarith) ht
  have t1 : |a' + b'| ≤ 1.001 * (|a| + |b|) := by
    have h1 : |a' + b'| ≤ |a' - a| + |b' - b| + |a + b| := by
      calc |a' + b'| = |(a' - a) + (b' - b) + (a + b)| := by ring_nf
        _ ≤ _ := abs_add_three _ _ _
    have := abs_add_le a b
    have := k _ a0
    have := k _ b0
    linarith
  have t2 : |y + c'| ≤ 1.003 * (|a| + |b| + |c|) := by
    have h1 : |y + c'| ≤ |y - (a' + b')| + |a' + b'| + |(c' - c) + c| := by
      calc |y + c'| = |(y - (a' + b')) + (a' + b') + ((c' - c) + c)| := by ring_nf
        _ ≤ _ := abs_add_three _ _ _
    have := abs_add_le (c' - c) c
    have := k _ c0
    have := k _ (abs_nonneg (a' + b'))
    linarith
  have f4 : |y - (a' + b')| ≤ u * (1.001 * (|a| + |b|)) := e4.trans (mul_le_mul_of_nonneg_left t1 hu.le)
  have f5 : |z - (y + c')| ≤ u * (1.003 * (|a| + |b| + |c|)) := e5.trans (mul_le_mul_of_nonneg_left t2 hu.le)
  have g1 := abs_add_three (a' - a) (b' - b) (c' - c)
  have g2 := abs_add_three (z - (y + c')) (y - (a' + b')) ((a' - a) + (b' - b) + (c' - c))
  rw [show z - (a + b + c) = (z - (y + c')) + (y - (a' + b')) + ((a' - a) + (b' - b) + (c' - c)) by ring]
  have p1 : 0 ≤ u * |a| := by positivity
  have p2 : 0 ≤ u * |b| := by positivity
  have p3 : 0 ≤ u * |c| := by positivity
  linarith

theorem dot_err (v w : V3 ℝ) : |A.dot v w - V3.dot v w| ≤ 3.03 * u * (norm v * norm w) := by
  unfold Arith.dot V3.dot
  rw [hA.rd]
  have hu := u_pos
  exact (sum_err _ _ _).trans (mul_le_mul_of_nonneg_left (sum_abs_le v w) (by positivity))

theorem near_root (vin vout : V3 ℝ) : Near 8.09 (norm vin * norm vout) (rn √(rn (A.dot vin vin * A.dot vout vout))) := by
  have h := (((near_dot hA vin).mul (near_dot hA vout) (by norm_num)).rn (by norm_num)).sqrt.rn (by norm_num)
  have e : √(V3.dot vin vin * V3.dot vout vout) = norm vin * norm vout := by
    rw [sqrt_mul (dot_self_nonneg _)]; rfl
  rw [e] at h
  exact h.mono (by norm_num)

theorem root_run (vin vout : V3 ℝ) :
    A.sqrt? (A.rd (A.dot vin vin * A.dot vout vout)) = some (rn √(rn (A.dot vin vin * A.dot vout vout))) := by
  have h := (((near_dot hA vin).mul (near_dot hA vout) (by norm_num)).rn (by norm_num)).nonneg
  unfold Arith.sqrt?
  rw [hA.rd, sqrt?_ok h]
  rfl

/-- The computed cosine of the turn. -/
theorem fbCos_err {vin vout : V3 ℝ} (hi : vin ≠ 0) (ho : vout ≠ 0) : ∃ q, fbCosA A vin vout = some q ∧
    |q - V3.dot vin vout / (norm vin * norm vout)| ≤ 12.2 * u := by
  have hu := u_pos
  have hus := u_small
  have hN : 0 < norm vin * norm vout := mul_pos (norm_pos hi) (norm_pos ho)
  have hs := near_root hA vin vout
  have hs0 := hs.pos hN
  refine ⟨rn (A.dot vin vout / rn √(rn (A.dot vin vin * A.dot vout vout))), ?_, ?_⟩
  · unfold fbCosA
    rw [root_run hA]
    simp only [Option.bind_eq_bind, Option.bind_some, Arith.div?, div?_ok hs0.ne', hA.rd]
    rfl
  have hv := hs.inv hN (by norm_num)
  set s := rn √(rn (A.dot vin vin * A.dot vout vout))
  have hd := dot_err hA vin vout
  have hc := abs_dot_le vin vout
  set N := norm vin * norm vout
  set D := V3.dot vin vout
  set D' := A.dot vin vout
  have hi1 := hv.abs_le
  have hi2 : 1 / s ≤ 1.001 * (1 / N) := by
    have := (abs_le.1 hi1).2
    have : (8.09 + 0.01) * u * (1 / N) ≤ 0.001 * (1 / N) := mul_le_mul_of_nonneg_right (by linarith) (by positivity)
    linarith
  have e : D' / s - D / N = (D' - D) * (1 / s) + D * (1 / s - 1 / N) := by ring
  have h1 : |D' / s - D / N| ≤ 11.14 * u := by
    rw [e]
    have a1 : |(D' - D) * (1 / s)| ≤ (3.03 * u * N) * (1.001 * (1 / N)) := by
      rw [abs_mul, abs_of_pos (by positivity : 0 < 1 / s)]
      exact mul_le_mul hd hi2 (by positivity) (by positivity)
    have a2 : |D * (1 / s - 1 / N)| ≤ N * ((8.09 + 0.01) * u * (1 / N)) := by
      rw [abs_mul]; exact mul_le_mul hc hi1 (abs_nonneg _) hN.le
    have b1 : (3.03 * u * N) * (1.001 * (1 / N)) = 3.03 * 1.001 * u := by field_simp
    have b2 : N * ((8.09 + 0.01) * u * (1 / N)) = 8.1 * u := by field_simp; norm_num
    have := abs_add_le ((D' - D) * (1 / s)) (D * (1 / s - 1 / N))
    rw [b1] at a1
    rw [b2] at a2
    nlinarith
  have h2 : |D / N| ≤ 1 := by rw [abs_div, abs_of_pos hN, div_le_one hN]; exact hc
  have h3 : |D' / s| ≤ 1.001 := by
    calc |D' / s| = |(D' / s - D / N) + D / N| := by ring_nf
      _ ≤ |D' / s - D / N| + |D / N| := abs_add_le _ _
      _ ≤ _ := by linarith
  have h4 := rn_err' (D' / s)
  calc |rn (D' / s) - D / N| = |(rn (D' / s) - D' / s) + (D' / s - D / N)| := by ring_nf
    _ ≤ |rn (D' / s) - D' / s| + |D' / s - D / N| := abs_add_le _ _
    _ ≤ _ := by nlinarith

omit hA in
theorem holder1 {x y : ℝ} (hx : -1 ≤ x ∧ x ≤ 1) (hy : -1 ≤ y ∧ y ≤ 1) (h : |x - y| ≤ 12.2 * u) :
    |arccos x - arccos y| ≤ 8.2 / 10 ^ 8 := by
  refine (arccos_holder hx hy).trans ?_
  have : √(|x - y| / 2) ≤ 2.61 / 10 ^ 8 := by
    rw [Real.sqrt_le_left (by norm_num)]
    unfold u at h
    calc |x - y| / 2 ≤ 12.2 * (1 / 2 ^ 53) / 2 := by linarith
      _ ≤ _ := by norm_num
  have hpi := pi_lt_d4
  nlinarith [sqrt_nonneg (|x - y| / 2), pi_pos]

omit hA in
theorem holder2 {x y : ℝ} (hx : -1 ≤ x ∧ x ≤ 1) (hy : -1 ≤ y ∧ y ≤ 1) (h : |x - y| ≤ 7.1 * u) :
    |arcsin x - arcsin y| ≤ 6.25 / 10 ^ 8 := by
  have := arccos_holder hx hy
  rw [arccos, arccos, show π / 2 - arcsin x - (π / 2 - arcsin y) = -(arcsin x - arcsin y) by ring, abs_neg] at this
  refine this.trans ?_
  have : √(|x - y| / 2) ≤ 1.9855 / 10 ^ 8 := by
    rw [Real.sqrt_le_left (by norm_num)]
    unfold u at h
    calc |x - y| / 2 ≤ 7.1 * (1 / 2 ^ 53) / 2 := by linarith
      _ ≤ _ := by norm_num
  have hpi := pi_lt_d4
  nlinarith [sqrt_nonneg (|x - y| / 2), pi_pos]

/-- The computed maximum turn angle. -/
theorem turn_err {vin vout : V3 ℝ} {mu safe : ℝ} (hmu : 0 < mu) (hs : 0 < safe) (hi : vin ≠ 0) : ∃ t, 0 ≤ t ∧
    |t - turnAngle safe (V3.dot vin vin) mu| ≤ 1.26 / 10 ^ 7 ∧
    fbIneqA A vin vout mu safe = (fbCosA A vin vout).bind fun q => (A.acos? q).map fun al => rn (al - t) := by
  have hu := u_pos
  have hus := u_small
  have hV : 0 < V3.dot vin vin := by rw [← norm_sq]; have := norm_pos hi; positivity
  have hnV := near_dot hA vin
  have hx : Near 5.06 (safe / mu * V3.dot vin vin) (rn (rn (safe / mu) * A.dot vin vin)) :=
    ((((Near.exact (by positivity : 0 ≤ safe / mu)).rn (by norm_num)).mul hnV (by norm_num)).rn (by norm_num)).mono (by norm_num)
  have he := ((Near.exact (zero_le_one' ℝ)).mono (by norm_num : (0 : ℝ) ≤ 5.06)).add hx |>.rn (by norm_num)
  have he0 : 0 < 1 + safe / mu * V3.dot vin vin := by positivity
  have he1 : 1 ≤ rn (1 + rn (rn (safe / mu) * A.dot vin vin)) := by
    have h1 : rn (1 : ℝ) = 1 := by exact_mod_cast rn_int (K := ℝ) (n := 1) (by norm_num)
    conv_lhs => rw [← h1]
    exact rn_mono (by linarith [hx.nonneg])
  have hie := (he.inv he0 (by norm_num)).rn (by norm_num)
  set e' := rn (1 + rn (rn (safe / mu) * A.dot vin vin)) with hed
  have i0 : 0 ≤ rn (1 / e') := hie.nonneg
  have i1 : rn (1 / e') ≤ 1 := by
    have h1 : rn (1 : ℝ) = 1 := by exact_mod_cast rn_int (K := ℝ) (n := 1) (by norm_num)
    rw [← h1]
    apply rn_mono
    rw [h1, div_le_one (by linarith)]; exact he1
  obtain ⟨j0, j1⟩ := turn_arg hmu hV hs
  have hd : |rn (1 / e') - 1 / (1 + safe * V3.dot vin vin / mu)| ≤ 7.1 * u := by
    have h := hie.abs_le
    rw [show safe / mu * V3.dot vin vin = safe * V3.dot vin vin / mu by ring] at h
    have : (5.06 + 1.01 + 0.01 + 1.01) * u * (1 / (1 + safe * V3.dot vin vin / mu)) ≤ 7.1 * u := by nlinarith
    linarith
  have hh := holder2 ⟨by linarith, i1⟩ ⟨by linarith, j1.le⟩ hd
  have hlib := hA.asin _ (by linarith) i1
  refine ⟨rn (2 * A.asin (rn (1 / e'))), rn_nonneg (by have := hA.asin_nonneg _ i0 i1; linarith), ?_, ?_⟩
  · unfold turnAngle
    set s' := A.asin (rn (1 / e'))
    set s := arcsin (1 / (1 + safe * V3.dot vin vin / mu))
    have h1 : |s' - s| ≤ 6.26 / 10 ^ 8 := by
      calc |s' - s| = |(s' - arcsin (rn (1 / e'))) + (arcsin (rn (1 / e')) - s)| := by ring_nf
        _ ≤ _ := abs_add_le _ _
        _ ≤ 1 / 2 ^ 50 + 6.25 / 10 ^ 8 := by linarith
        _ ≤ _ := by norm_num
    have h2 : |s| ≤ 1.6 := by
      have := arcsin_le_pi_div_two (1 / (1 + safe * V3.dot vin vin / mu))
      have := neg_pi_div_two_le_arcsin (1 / (1 + safe * V3.dot vin vin / mu))
      have := pi_lt_d4
      rw [abs_le]; constructor <;> linarith
    have h3 : |2 * s'| ≤ 4 := by
      rw [abs_le] at h1 h2 ⊢; constructor <;> linarith
    have h4 := rn_err' (2 * s')
    have h5 : u * |2 * s'| ≤ 4 / 10 ^ 15 := by nlinarith [abs_nonneg (2 * s')]
    rw [abs_le] at h1 ⊢
    have h6 := abs_le.1 (h4.trans h5)
    constructor <;> norm_num at * <;> linarith
  · unfold fbIneqA Arith.div? Arith.asin?
    rw [div?_ok hmu.ne']
    simp only [Option.bind_eq_bind, Option.map_some, Option.bind_some, hA.rd, ← hed, div?_ok (by linarith : e' ≠ 0)]
    cases fbCosA A vin vout with
    | none => rfl
    | some q =>
      simp only [Option.bind_some]
      cases A.acos? q with
      | none => rfl
      | some al => simp only [Option.bind_some, Option.map_some, if_pos (⟨by linarith, i1⟩ : -1 ≤ rn (1 / e') ∧ rn (1 / e') ≤ 1)]; rfl

end Bounds
end Kep3
