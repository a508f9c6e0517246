import Verif.Lambert.Double
import Verif.Lambert.Orbit
import Verif.Elements.Props85

/-!
# Lambert problems in double precision: which results are numbers
-/

namespace Kep3
open Real V3 Fl

theorem Fl.Near.trans {j k x y z : ℝ} (h : Near j x y) (g : Near k y z) (hjk : j + k ≤ 99) : Near (j + k + 0.01) x z := by
  obtain ⟨x0, j0, j1, h⟩ := h
  obtain ⟨y0, k0, k1, g⟩ := g
  have hu := u_pos
  have hus := u_small
  refine ⟨x0, by linarith, by linarith, ?_⟩
  have t := abs_sub_le z y x
  have hy : y ≤ x + j * u * x := by have := (_root_.abs_le.1 h).2; linarith
  have ku : 0 ≤ k * u := by positivity
  have g' := g.trans (mul_le_mul_of_nonneg_left hy ku)
  have ux : 0 ≤ u * x := by positivity
  have h1 : k * u * (j * u * x) ≤ 0.01 * (u * x) := by
    have a1 : k * u ≤ 1 / 10 ^ 13 := by
      have := mul_le_mul k1 hus hu.le (by norm_num)
      linarith
    have a2 : j * (u * x) ≤ 100 * (u * x) := mul_le_mul_of_nonneg_right j1 ux
    have a3 : 0 ≤ j * (u * x) := by positivity
    calc k * u * (j * u * x) = k * u * (j * (u * x)) := by ring
      _ ≤ 1 / 10 ^ 13 * (100 * (u * x)) := mul_le_mul a1 a2 a3 (by norm_num)
      _ ≤ _ := by linarith
  linarith

namespace Lambert

section Err
variable {A : Arith} (hA : A.Double) {B : Blas} (hB : B.Ok)
include hA

/-- Rounding the components moves a vector by at most one unit of its length. -/
theorem near_round (v : V3 ℝ) : Near 1 (norm v) (norm (⟨rn v.x, rn v.y, rn v.z⟩ : V3 ℝ)) := by
  have hu := u_pos
  have n0 := norm_nonneg v
  refine ⟨n0, by norm_num, by norm_num, ?_⟩
  set w : V3 ℝ := ⟨rn v.x, rn v.y, rn v.z⟩ with hw
  have hd : norm (w - v) ≤ u * norm v := by
    refine abs_le_of_sq_le_sq' ?_ (by positivity) |>.2
    rw [mul_pow, norm_sq, norm_sq]
    have q : ∀ t : ℝ, (rn t - t) * (rn t - t) ≤ u ^ 2 * (t * t) := by
      intro t
      have := rn_err' t
      calc (rn t - t) * (rn t - t) = |rn t - t| * |rn t - t| := (abs_mul_abs_self _).symm
        _ ≤ (u * |t|) * (u * |t|) := mul_le_mul this this (abs_nonneg _) (by positivity)
        _ = u ^ 2 * (t * t) := by rw [← abs_mul_abs_self t]; ring
    unfold V3.dot
    have := q v.x
    have := q v.y
    have := q v.z
    simp only [hw, V3.sub_x, V3.sub_y, V3.sub_z]
    linarith
  have t1 := norm_sub_le' (w - v) (-v)
  have t2 := norm_sub_le' w (w - v)
  have n1 : norm (-v) = norm v := by unfold V3.norm V3.dot; simp
  have s1 : w - v - -v = w := by ext <;> simp
  have s2 : w - (w - v) = v := by ext <;> simp
  rw [s1, n1] at t1
  rw [s2] at t2
  rw [abs_le, one_mul]
  constructor <;> linarith

include hB

theorem chord_err (r0 r1 : V3 ℝ) : Near 6.01 (norm (r1 - r0)) (chordD A B r0 r1) := by
  have h1 := near_round hA (r1 - r0)
  have h2 := hB.norm (A.sub r1 r0)
  unfold chordD
  have e : A.sub r1 r0 = ⟨rn (r1 - r0).x, rn (r1 - r0).y, rn (r1 - r0).z⟩ := by unfold Arith.sub; rw [hA.rd]; rfl
  rw [e] at h2 ⊢
  exact (h1.trans h2 (by norm_num)).mono (by norm_num)

theorem semi_err (r0 r1 : V3 ℝ) : Near 9.1 ((norm (r1 - r0) + norm r0 + norm r1) / 2) (semiD A B r0 r1) := by
  have h1 := (chord_err hA hB r0 r1).add ((hB.norm r0).mono (by norm_num : (5 : ℝ) ≤ 6.01))
  have h2 := (h1.rn (by norm_num)).add ((hB.norm r1).mono (by norm_num : (5 : ℝ) ≤ 6.01 + 1.01))
  have h3 := ((h2.rn (by norm_num)).mul (Near.exact (by norm_num : (0 : ℝ) ≤ 1 / 2)) (by norm_num)).rn (by norm_num)
  unfold semiD
  rw [hA.rd, div_eq_mul_one_div, div_eq_mul_one_div (rn _)]
  exact h3.mono (by norm_num)


/-! ## Which results are numbers -/

omit hA hB in
/-- The sine of the transfer angle in a triangle that is not degenerate. -/
theorem sin_lower {a b c C : ℝ} (ha : 0 < a) (hb : 0 < b) (hC : 0 ≤ C)
    (hh : 4 * C ^ 2 = (a + b + c) * (a + b - c) * (c ^ 2 - (a - b) ^ 2)) (h1 : 40 * u * (a + b + c) ≤ a + b - c)
    (h2 : 40 * u * (a + b + c) ≤ c - |a - b|) : 40 * u * (a * b) ≤ C := by
  have hu := u_pos
  have c0 : 0 ≤ c := by
    have h3 := abs_nonneg (a - b)
    by_contra h
    have h4 : 0 ≤ a + b + c ∨ a + b + c < 0 := le_or_gt 0 _
    rcases h4 with h4 | h4
    · have : 0 ≤ 40 * u * (a + b + c) := by positivity
      linarith
    · have us := u_small
      have : (1 - 40 * u) * -(a + b + c) > 0 := mul_pos (by linarith) (by linarith)
      nlinarith
  set p := a + b + c with hp
  have p0 : 0 < p := by linarith
  have hw : 0 < 40 * u * p := by positivity
  have e : c ^ 2 - (a - b) ^ 2 = (c - |a - b|) * (c + |a - b|) := by rw [← sq_abs (a - b)]; ring
  have h3 : 40 * u * p * c ≤ c ^ 2 - (a - b) ^ 2 := by
    rw [e]
    exact mul_le_mul h2 (by linarith [abs_nonneg (a - b)]) c0 (by linarith)
  have hc : 40 * u * p ≤ c := by linarith [abs_nonneg (a - b)]
  have hab : a * b ≤ (p - c) ^ 2 / 4 := by rw [hp]; nlinarith [sq_nonneg (a - b)]
  have ab0 : 0 < a * b := by positivity
  refine abs_le_of_sq_le_sq' ?_ hC |>.2
  rcases le_or_gt (p / 4) c with h | h
  · have k1 : p * (40 * u * p) ≤ p * (a + b - c) := mul_le_mul_of_nonneg_left h1 p0.le
    have k2 : 40 * u * p * (p / 4) ≤ c ^ 2 - (a - b) ^ 2 := (mul_le_mul_of_nonneg_left h hw.le).trans h3
    have k3 := mul_le_mul k1 k2 (by positivity) (by have := mul_pos p0 hw; linarith)
    have q1 : a * b ≤ 9 / 64 * p ^ 2 := by nlinarith
    have q2 : (a * b) ^ 2 ≤ (9 / 64 * p ^ 2) ^ 2 := pow_le_pow_left₀ ab0.le q1 2
    have q3 := mul_le_mul_of_nonneg_left q2 (sq_nonneg (40 * u))
    have : 0 ≤ u ^ 2 * p ^ 4 := by positivity
    nlinarith
  · have k1 : p * (p / 2) ≤ p * (a + b - c) := mul_le_mul_of_nonneg_left (by rw [hp] at h ⊢; linarith) p0.le
    have k2 : 40 * u * p * (40 * u * p) ≤ c ^ 2 - (a - b) ^ 2 := (mul_le_mul_of_nonneg_left hc hw.le).trans h3
    have k3 := mul_le_mul k1 k2 (by positivity) (by have := mul_pos p0 p0; linarith)
    have q1 : a * b ≤ 1 / 4 * p ^ 2 := by nlinarith
    have q2 : (a * b) ^ 2 ≤ (1 / 4 * p ^ 2) ^ 2 := pow_le_pow_left₀ ab0.le q1 2
    have q3 := mul_le_mul_of_nonneg_left q2 (sq_nonneg (40 * u))
    have : 0 ≤ u ^ 2 * p ^ 4 := by positivity
    nlinarith

omit hA hB in
theorem heron (r0 r1 : V3 ℝ) : 4 * norm (cross r0 r1) ^ 2 =
    (norm r0 + norm r1 + norm (r1 - r0)) * (norm r0 + norm r1 - norm (r1 - r0)) * (norm (r1 - r0) ^ 2 - (norm r0 - norm r1) ^ 2) := by
  have h := lagrange r0 r1
  rw [← norm_sq, ← norm_sq, ← norm_sq] at h
  have hc : norm (r1 - r0) ^ 2 = norm r0 ^ 2 + norm r1 ^ 2 - 2 * dot r0 r1 := by
    rw [norm_sq, norm_sq, norm_sq]; unfold V3.dot; simp; ring
  have hd : dot r0 r1 = (norm r0 ^ 2 + norm r1 ^ 2 - norm (r1 - r0) ^ 2) / 2 := by linarith
  rw [h, hd]; ring

/-- A vector divided by its computed length. -/
theorem unit_err {v : V3 ℝ} (hv : v ≠ 0) : ∃ w, A.vdiv? v (B.norm v) = some w ∧ norm (w - (1 / norm v) • v) ≤ 10.7 * u := by
  have N := norm_pos hv
  have hp := norm_pos_of hA hB hv
  have hu := u_pos
  have q : ∀ t : ℝ, |t| ≤ norm v → |rn (t / B.norm v) - t / norm v| ≤ 6.1 * u := by
    intro t ht
    have := quot_err (k := 0) (s := 1) (d := t) (d' := t) N (hB.norm v) le_rfl (by norm_num) (by simp) (by rw [one_mul]; exact ht)
    exact this.trans (le_of_eq (by ring))
  obtain ⟨a1, a2, a3⟩ := abs_x_le v
  refine ⟨_, by unfold Arith.vdiv?; rw [if_neg hp.ne', hA.rd], ?_⟩
  refine (norm_le_of_comp (m := 6.1 * u) (by positivity) ?_ ?_ ?_).trans (by linarith)
  · simpa [inv_mul_eq_div] using q _ a1
  · simpa [inv_mul_eq_div] using q _ a2
  · simpa [inv_mul_eq_div] using q _ a3

omit hA hB in
theorem norm_neg' (a : V3 ℝ) : norm (-a) = norm a := by unfold V3.norm V3.dot; simp

omit hA hB in
theorem V3zero_sub (a : V3 ℝ) : 0 - a = -a := by ext <;> simp

omit hA hB in
theorem norm_le_add (a b : V3 ℝ) : norm a ≤ norm b + norm (a - b) := by
  have t := norm_sub_le' b (-(a - b))
  have n1 : norm (-(a - b)) = norm (a - b) := norm_neg' _
  have s1 : b - -(a - b) = a := by ext <;> simp
  rwa [n1, s1] at t

omit hA hB in
theorem norm_sub_symm (a b : V3 ℝ) : norm (a - b) = norm (b - a) := by
  unfold V3.norm V3.dot; congr 1; simp; ring

omit hB in
/-- The computed cross product of perturbed vectors of about unit length. -/
theorem cross_err2 {a b a' b' : V3 ℝ} (ha : norm a = 1) (hb : norm b = 1) (da : norm (a' - a) ≤ 10.7 * u) (db : norm (b' - b) ≤ 10.7 * u) :
    norm (A.cross a' b' - cross a b) ≤ 29 * u := by
  have hu := u_pos
  have hus := u_small
  have na : norm a' ≤ 1.0001 := by have := norm_le_add a' a; linarith
  have nb : norm b' ≤ 1.0001 := by have := norm_le_add b' b; linarith
  have na0 := norm_nonneg a'
  have nb0 := norm_nonneg b'
  obtain ⟨c1, c2, c3⟩ := crossD_err hA a' b' b' (k := 0) le_rfl (by norm_num) le_rfl (by simp) (by simp) (by simp)
  have h1 : norm (A.cross a' b' - cross a' b') ≤ 7.4 * u := by
    have hm : (0 + 2.1) * u * (2 * (norm a' * norm b')) ≤ 4.21 * u := by
      have : norm a' * norm b' ≤ 1.0001 * 1.0001 := mul_le_mul na nb nb0 (by norm_num)
      nlinarith
    refine (norm_le_of_comp (m := 4.21 * u) (by positivity) ?_ ?_ ?_).trans (by linarith)
    · exact c1.trans hm
    · exact c2.trans hm
    · exact c3.trans hm
  have h2 : norm (cross a' b' - cross a b') ≤ 10.7 * u * 1.0001 := by
    have e : cross a' b' - cross a b' = cross (a' - a) b' := by ext <;> simp <;> ring
    rw [e]
    exact (norm_cross_le _ _).trans (mul_le_mul da nb nb0 (by positivity))
  have h3 : norm (cross a b' - cross a b) ≤ 10.7 * u := by
    have e : cross a b' - cross a b = cross a (b' - b) := by ext <;> simp <;> ring
    rw [e]
    exact (norm_cross_le _ _).trans (by rw [ha, one_mul]; exact db)
  have t1 := norm_le_add (A.cross a' b' - cross a b) (A.cross a' b' - cross a' b')
  have t2 := norm_le_add (cross a' b' - cross a b) (cross a' b' - cross a b')
  have s1 : A.cross a' b' - cross a b - (A.cross a' b' - cross a' b') = cross a' b' - cross a b := by ext <;> simp
  have s2 : cross a' b' - cross a b - (cross a' b' - cross a b') = cross a b' - cross a b := by ext <;> simp
  rw [s1] at t1
  rw [s2] at t2
  linarith

/-- A tangential direction is defined: `w` is close to a vector normal to `e`. -/
theorem tangent_ok {S w e e' : V3 ℝ} (he : norm e = 1) (hSe : dot S e = 0) (hS : 40 * u ≤ norm S) (hw : norm (w - S) ≤ 29 * u) (hw0 : w ≠ 0)
    (hee : norm (e' - e) ≤ 10.7 * u) {h : V3 ℝ} (hh : norm (h - (1 / norm w) • w) ≤ 10.7 * u) : A.cross h e' ≠ 0 := by
  have hu := u_pos
  have hus := u_small
  have W := norm_pos hw0
  have w1 : norm ((1 / norm w) • w) = 1 := by rw [norm_smul_pos' (one_div_pos.2 W), one_div_mul_cancel W.ne']
  have h1 := cross_err2 hA w1 he hh hee
  intro h0
  rw [h0] at h1
  have e0 : norm (0 - cross ((1 / norm w) • w) e) = norm (cross ((1 / norm w) • w) e) := by rw [V3zero_sub, norm_neg']
  have e1 : cross ((1 / norm w) • w) e = (1 / norm w) • cross w e := by ext <;> simp <;> ring
  rw [e0, e1, norm_smul_pos' (one_div_pos.2 W), one_div, inv_mul_le_iff₀ W] at h1
  have h2 : norm (cross S e) = norm S := by
    have l := lagrange S e
    rw [hSe, ← norm_sq, ← norm_sq, ← norm_sq, he] at l
    nlinarith [norm_nonneg S, norm_nonneg (cross S e)]
  have h3 : norm (cross S e - cross w e) ≤ 29 * u := by
    have ee : cross S e - cross w e = cross (S - w) e := by ext <;> simp <;> ring
    rw [ee]
    refine (norm_cross_le _ _).trans ?_
    rw [he, mul_one, norm_sub_symm]; exact hw
  have h4 := norm_le_add (cross S e) (cross w e)
  have h5 := norm_le_add w S
  have : norm w * (29 * u) ≤ (norm S + 29 * u) * (29 * u) := mul_le_mul_of_nonneg_right (by linarith) (by positivity)
  have : norm S * (29 * u) ≤ norm S * 0.01 := mul_le_mul_of_nonneg_left (by linarith) (norm_nonneg S)
  nlinarith

/-- The rounded number is zero only if the number is. -/
theorem rn_ne_zero {t : ℝ} (h : t ≠ 0) : rn t ≠ 0 := by
  intro h0
  have := rn_err' t
  rw [h0, zero_sub, abs_neg] at this
  have hu := u_small
  have := abs_pos.2 h
  nlinarith

theorem frame_ok {r0 r1 : V3 ℝ} (n0 : r0 ≠ 0) (n1 : r1 ≠ 0) (hs : 40 * u * (norm r0 * norm r1) ≤ norm (cross r0 r1)) :
    ∃ irs irf ih w its itf, normalD A B r0 r1 = some (irs, irf, ih) ∧ w ≠ 0 ∧ ih.z = rn (w.z / B.norm w) ∧ 0 < B.norm w ∧
      norm (w - (1 / norm r0 * (1 / norm r1)) • cross r0 r1) ≤ 29 * u ∧
      A.vdiv? (A.cross ih irs) (B.norm (A.cross ih irs)) = some its ∧ A.vdiv? (A.cross ih irf) (B.norm (A.cross ih irf)) = some itf := by
  have hu := u_pos
  have R0 := norm_pos n0
  have R1 := norm_pos n1
  obtain ⟨irs, hi0, d0⟩ := unit_err hA hB n0
  obtain ⟨irf, hi1, d1⟩ := unit_err hA hB n1
  set e0 := (1 / norm r0) • r0 with he0
  set e1 := (1 / norm r1) • r1 with he1
  have l0 : norm e0 = 1 := by rw [he0, norm_smul_pos' (one_div_pos.2 R0), one_div_mul_cancel R0.ne']
  have l1 : norm e1 = 1 := by rw [he1, norm_smul_pos' (one_div_pos.2 R1), one_div_mul_cancel R1.ne']
  have hS : cross e0 e1 = (1 / norm r0 * (1 / norm r1)) • cross r0 r1 := cross_smul_smul _ _ _ _
  have hSn : 40 * u ≤ norm (cross e0 e1) := by
    rw [hS, norm_smul_pos' (by positivity), one_div, one_div, ← mul_inv, inv_mul_eq_div, le_div_iff₀ (by positivity)]
    exact hs
  have hw := cross_err2 hA l0 l1 d0 d1
  set w := A.cross irs irf with hwd
  have w0 : w ≠ 0 := by
    intro h
    rw [h, V3zero_sub, norm_neg'] at hw
    linarith
  obtain ⟨ih, hih, dh⟩ := unit_err hA hB w0
  have o0 : dot (cross e0 e1) e0 = 0 := by unfold V3.dot; simp; ring
  have o1 : dot (cross e0 e1) e1 = 0 := by unfold V3.dot; simp; ring
  have t0 := tangent_ok hA hB l0 o0 hSn hw w0 d0 dh
  have t1 := tangent_ok hA hB l1 o1 hSn hw w0 d1 dh
  obtain ⟨its, hits, -⟩ := unit_err hA hB t0
  obtain ⟨itf, hitf, -⟩ := unit_err hA hB t1
  refine ⟨irs, irf, ih, w, its, itf, ?_, w0, ?_, norm_pos_of hA hB w0, hS ▸ hw, hits, hitf⟩
  · unfold normalD
    simp only [hi0, hi1, Option.bind_eq_bind, Option.bind_some, ← hwd, hih, Option.pure_def]
  · unfold Arith.vdiv? at hih
    rw [if_neg (norm_pos_of hA hB w0).ne', hA.rd] at hih
    rw [← Option.some.inj hih]

theorem lambda_ok {r0 r1 : V3 ℝ} (n0 : r0 ≠ 0) (h1 : 16 * u * (norm r0 + norm r1 + norm (r1 - r0)) ≤ norm r0 + norm r1 - norm (r1 - r0)) :
    ∃ l2, lambda2D A B r0 r1 = some l2 ∧ 0 ≤ l2 ∧ l2 ≤ 1 := by
  have hu := u_pos
  have R0 := norm_pos n0
  have c0 := norm_nonneg (r1 - r0)
  have f0 := norm_nonneg r1
  have hc := chord_err hA hB r0 r1
  have hs := semi_err hA hB r0 r1
  have sp := hs.pos (by linarith)
  have hle : chordD A B r0 r1 ≤ semiD A B r0 r1 := by
    have a1 := (abs_le.1 hc.abs_le).2
    have a2 := (abs_le.1 hs.abs_le).1
    have : 0 ≤ u * norm (r1 - r0) := by positivity
    have : 0 ≤ u * norm r0 := by positivity
    have : 0 ≤ u * norm r1 := by positivity
    have tri : norm (r1 - r0) ≤ norm r0 + norm r1 := by
      have := norm_sub_le' r1 r0; linarith
    have := mul_le_mul_of_nonneg_left tri hu.le
    linarith
  refine ⟨rn (1 - rn (chordD A B r0 r1 / semiD A B r0 r1)), ?_, ?_, ?_⟩
  · unfold lambda2D Arith.div?
    rw [div?_ok sp.ne', hA.rd]
    rfl
  · apply rn_nonneg
    rw [sub_nonneg, ← rn_one]
    apply rn_mono
    rw [div_le_one sp]; exact hle
  · have q := rn_nonneg (div_nonneg hc.nonneg sp.le)
    calc rn (1 - rn (chordD A B r0 r1 / semiD A B r0 r1)) ≤ rn 1 := rn_mono (by linarith)
      _ = 1 := rn_one

theorem sigma_ok {r0 r1 : V3 ℝ} (hne : r1 - r0 ≠ 0) (h2 : 7 * u * (norm r0 + norm r1 + norm (r1 - r0)) ≤ norm (r1 - r0) - |norm r0 - norm r1|) :
    ∃ rho sg, A.div? (A.rd (B.norm r0 - B.norm r1)) (chordD A B r0 r1) = some rho ∧ A.sqrt? (A.rd (1 - A.rd (rho * rho))) = some sg := by
  have hu := u_pos
  have hus := u_small
  have C := norm_pos hne
  have hc := chord_err hA hB r0 r1
  have cp := hc.pos C
  have a0 := (hB.norm r0).abs_le
  have a1 := (hB.norm r1).abs_le
  have p0 := norm_nonneg r0
  have p1 := norm_nonneg r1
  rw [hA.rd]
  have e := rn_err' (B.norm r0 - B.norm r1)
  have hD : |rn (B.norm r0 - B.norm r1)| ≤ chordD A B r0 r1 := by
    have b1 : |B.norm r0 - B.norm r1| ≤ |norm r0 - norm r1| + 5 * u * (norm r0 + norm r1) := by
      have : B.norm r0 - B.norm r1 = (norm r0 - norm r1) + ((B.norm r0 - norm r0) + -(B.norm r1 - norm r1)) := by ring
      rw [this]
      refine (abs_add_le _ _).trans ?_
      have := abs_add_le (B.norm r0 - norm r0) (-(B.norm r1 - norm r1))
      rw [abs_neg] at this
      linarith
    have b2 : |norm r0 - norm r1| ≤ norm r0 + norm r1 := by rw [abs_le]; constructor <;> linarith
    have b3 : |B.norm r0 - B.norm r1| ≤ 1.01 * (norm r0 + norm r1) := by
      have : u * (norm r0 + norm r1) ≤ 0.0001 * (norm r0 + norm r1) := mul_le_mul_of_nonneg_right (by linarith) (by linarith)
      linarith
    have b4 := mul_le_mul_of_nonneg_left b3 hu.le
    have b5 : |rn (B.norm r0 - B.norm r1)| ≤ |rn (B.norm r0 - B.norm r1) - (B.norm r0 - B.norm r1)| + |B.norm r0 - B.norm r1| := by
      have := abs_add_le (rn (B.norm r0 - B.norm r1) - (B.norm r0 - B.norm r1)) (B.norm r0 - B.norm r1)
      rwa [sub_add_cancel] at this
    have b6 := (abs_le.1 hc.abs_le).1
    have : 0 ≤ u * norm (r1 - r0) := by positivity
    have : 0 ≤ u * (norm r0 + norm r1) := by positivity
    linarith
  obtain ⟨q1, q2⟩ := quot_le cp hD
  refine ⟨rn (rn (B.norm r0 - B.norm r1) / chordD A B r0 r1), rn √(rn (1 - rn (rn (rn (B.norm r0 - B.norm r1) / chordD A B r0 r1) *
    rn (rn (B.norm r0 - B.norm r1) / chordD A B r0 r1)))), ?_, ?_⟩
  · unfold Arith.div?; rw [div?_ok cp.ne', hA.rd]; rfl
  · unfold Arith.sqrt?
    rw [sqrt?_ok, hA.rd]
    · rfl
    · apply rn_nonneg
      rw [sub_nonneg, ← rn_one]
      apply rn_mono
      nlinarith

/-- **C86.** Unless the triangle of the focus and the two positions is degenerate to within 40 units (of 2⁻⁵³) of its perimeter, the parameter `lambda` is a number
and so are the velocities, for every value the iterations return. An error only if the orbital plane contains the third axis to within rounding. -/
theorem C86_numbers_partial {r0 r1 : V3 ℝ} {mu : ℝ} (cw : Bool) (n0 : r0 ≠ 0) (hmu : 0 < mu)
    (h1 : 40 / 2 ^ 53 * (norm r0 + norm r1 + norm (r1 - r0)) ≤ norm r0 + norm r1 - norm (r1 - r0))
    (h2 : 40 / 2 ^ 53 * (norm r0 + norm r1 + norm (r1 - r0)) ≤ norm (r1 - r0) - |norm r0 - norm r1|) :
    (geomD A B r0 r1 cw = .err .domainError ∧ |(cross r0 r1).z| ≤ 29 / 2 ^ 53 * (norm r0 * norm r1)) ∨
    ∃ g, geomD A B r0 r1 cw = .ok g ∧ (∃ l, g.lam = some l ∧ |l| ≤ 1) ∧ ∀ x, ∃ v, velocitiesD A g mu x = some v := by
  have hu := u_pos
  have hus := u_small
  have R0 := norm_pos n0
  have p1 := norm_nonneg r1
  have pc := norm_nonneg (r1 - r0)
  have e40 : (40 / 2 ^ 53 : ℝ) = 40 * u := by unfold u; norm_num
  have e29 : (29 / 2 ^ 53 : ℝ) = 29 * u := by unfold u; norm_num
  rw [e40] at h1 h2
  rw [e29]
  have per : 0 < norm r0 + norm r1 + norm (r1 - r0) := by linarith
  have uper := mul_pos hu per
  have n1 : r1 ≠ 0 := by
    rintro rfl
    have : norm (0 - r0) = norm r0 := by rw [V3zero_sub, norm_neg']
    rw [this] at h1 uper
    have : norm (0 : V3 ℝ) = 0 := V3.norm_eq_zero.2 rfl
    rw [this] at h1 uper
    linarith
  have R1 := norm_pos n1
  have nd : r1 - r0 ≠ 0 := by
    intro h
    rw [h, V3.norm_eq_zero.2 rfl] at h2 uper
    linarith [abs_nonneg (norm r0 - norm r1)]
  have hs := sin_lower R0 R1 (norm_nonneg _) (heron r0 r1) h1 h2
  obtain ⟨irs, irf, ih, w, its, itf, hn, w0, hz, wp, dw, hits, hitf⟩ := frame_ok hA hB n0 n1 hs
  obtain ⟨l2, hl2, l20, l21⟩ := lambda_ok hA hB (r1 := r1) n0 (by linarith)
  obtain ⟨rho, sg, hrho, hsg⟩ := sigma_ok hA hB nd (by linarith)
  by_cases hzero : ih.z = 0
  · left
    constructor
    · unfold geomD
      rw [hn]
      simp [hzero]
    · have wz : w.z = 0 := by
        by_contra h
        exact rn_ne_zero hA hB (div_ne_zero h wp.ne') (hz ▸ hzero)
      have := (abs_x_le (w - (1 / norm r0 * (1 / norm r1)) • cross r0 r1)).2.2.trans dw
      simp only [V3.sub_z, V3.smul_z, wz, zero_sub, abs_neg, abs_mul] at this
      rw [abs_of_pos (by positivity), abs_of_pos (by positivity), one_div, one_div, ← mul_inv, inv_mul_le_iff₀ (by positivity)] at this
      linarith
  · right
    have hsl : A.sqrt? l2 = some (rn √l2) := by unfold Arith.sqrt?; rw [sqrt?_ok l20, hA.rd]; rfl
    have hsq : 0 ≤ rn √l2 ∧ rn √l2 ≤ 1 := by
      refine ⟨rn_nonneg (sqrt_nonneg _), ?_⟩
      calc rn √l2 ≤ rn 1 := rn_mono (sqrt_le_one.2 l21)
        _ = 1 := rn_one
    have sp := (semi_err hA hB r0 r1).pos (by linarith)
    refine ⟨_, by
      unfold geomD
      rw [hn, if_neg (by simpa using hzero)], ?_, ?_⟩
    · refine ⟨flip (some ih.z) cw * rn √l2, ?_, ?_⟩
      · simp only [hl2, hsl, Option.bind_eq_bind, Option.bind_some, Option.map_some, Option.pure_def]
      · rw [abs_mul, abs_of_nonneg hsq.1]
        have : |flip (some ih.z) cw| = 1 := by
          have := flip_sq (some ih.z) cw
          rw [← abs_mul_abs_self] at this
          nlinarith [abs_nonneg (flip (some ih.z) cw)]
        rw [this, one_mul]; exact hsq.2
    · intro x
      have hg : A.sqrt? (A.rd (A.rd (mu * semiD A B r0 r1) / 2)) = some (rn √(rn (rn (mu * semiD A B r0 r1) / 2))) := by
        unfold Arith.sqrt?
        rw [hA.rd, sqrt?_ok]
        · rfl
        · exact rn_nonneg (div_nonneg (rn_nonneg (by positivity)) (by norm_num))
      have hy : ∃ y, A.sqrt? (A.rd (A.rd (1 - l2) + A.rd (A.rd (l2 * x) * x))) = some y := by
        refine ⟨rn √(rn (rn (1 - l2) + rn (rn (l2 * x) * x))), ?_⟩
        · unfold Arith.sqrt?
          rw [hA.rd, sqrt?_ok]
          · rfl
          · apply rn_nonneg
            have y1 : 0 ≤ rn (1 - l2) := rn_nonneg (by linarith)
            have y2 : 0 ≤ rn (rn (l2 * x) * x) := by
              apply rn_nonneg
              rcases le_total 0 x with hx | hx
              · exact mul_nonneg (rn_nonneg (mul_nonneg l20 hx)) hx
              · have := rn_nonneg (x := -(l2 * x)) (by nlinarith)
                rw [rn_neg] at this
                nlinarith
            linarith
      obtain ⟨y, hy⟩ := hy
      have d0 : ∀ a, A.div? a (B.norm r0) = some (rn (a / B.norm r0)) := fun a => by
        unfold Arith.div?; rw [div?_ok ((hB.norm r0).pos R0).ne', hA.rd]; rfl
      have d1 : ∀ a, A.div? a (B.norm r1) = some (rn (a / B.norm r1)) := fun a => by
        unfold Arith.div?; rw [div?_ok ((hB.norm r1).pos R1).ne', hA.rd]; rfl
      unfold velocitiesD
      simp only [hg, hrho, hsg, hl2, hsl, hy, hits, hitf, d0, d1, Option.bind_eq_bind, Option.bind_some, Option.map_some, Option.pure_def]
      exact ⟨_, rfl⟩

/-! ## Accuracy -/

/-- **C86.** The square of `lambda` is accurate to 18 units and the non-dimensional time of flight to 35 units, relatively. -/
theorem C86_accuracy {r0 r1 : V3 ℝ} {tof mu : ℝ} (n0 : r0 ≠ 0) (htof : 0 < tof) (hmu : 0 < mu) :
    (∃ l2, lambda2D A B r0 r1 = some l2 ∧
      |l2 - (norm r0 + norm r1 - norm (r1 - r0)) / (norm r0 + norm r1 + norm (r1 - r0))| ≤ 18 / 2 ^ 53) ∧
    ∃ T, timeD A (semiD A B r0 r1) tof mu = some T ∧
      |T - √(2 * mu / ((norm r0 + norm r1 + norm (r1 - r0)) / 2) ^ 3) * tof| ≤
        35 / 2 ^ 53 * (√(2 * mu / ((norm r0 + norm r1 + norm (r1 - r0)) / 2) ^ 3) * tof) := by
  have hu := u_pos
  have hus := u_small
  have R0 := norm_pos n0
  have c0 := norm_nonneg (r1 - r0)
  have f0 := norm_nonneg r1
  have hc := chord_err hA hB r0 r1
  have hs := semi_err hA hB r0 r1
  set s := (norm (r1 - r0) + norm r0 + norm r1) / 2 with hsd
  have s0 : 0 < s := by rw [hsd]; linarith
  have sp := hs.pos s0
  constructor
  · refine ⟨rn (1 - rn (chordD A B r0 r1 / semiD A B r0 r1)), ?_, ?_⟩
    · unfold lambda2D Arith.div?
      rw [div?_ok sp.ne', hA.rd]
      rfl
    · have hq := (hc.mul (hs.inv s0 (by norm_num)) (by norm_num)).rn (by norm_num)
      rw [mul_one_div, mul_one_div] at hq
      have hle : norm (r1 - r0) / s ≤ 1 := by
        rw [div_le_one s0, hsd]
        have := norm_sub_le' r1 r0
        linarith
      have h0 : 0 ≤ norm (r1 - r0) / s := by positivity
      have e : (norm r0 + norm r1 - norm (r1 - r0)) / (norm r0 + norm r1 + norm (r1 - r0)) = 1 - norm (r1 - r0) / s := by
        have : norm r0 + norm r1 + norm (r1 - r0) ≠ 0 := by positivity
        rw [hsd]; field_simp; ring
      rw [e]
      have h1 := hq.abs_le
      have h2 := rn_err' (1 - rn (chordD A B r0 r1 / semiD A B r0 r1))
      generalize norm (r1 - r0) / s = q at *
      generalize rn (chordD A B r0 r1 / semiD A B r0 r1) = q' at *
      have h3 : |q' - q| ≤ 16.2 * u := by
        refine h1.trans ?_
        have := mul_le_mul_of_nonneg_left hle hu.le
        linarith
      have h4 : |1 - q'| ≤ 1.0001 := by rw [abs_le] at h3 ⊢; constructor <;> linarith [h3.1, h3.2]
      have h5 := h2.trans (mul_le_mul_of_nonneg_left h4 hu.le)
      have e18 : (18 / 2 ^ 53 : ℝ) = 18 * u := by unfold u; norm_num
      rw [e18]
      rw [abs_le] at h3 h5 ⊢
      constructor <;> linarith [h3.1, h3.2, h5.1, h5.2]
  · have hi := hs.inv s0 (by norm_num)
    have a0 := (Near.exact (by positivity : 0 ≤ 2 * mu)).rn (by norm_num)
    have a1 := (a0.mul hi (by norm_num)).rn (by norm_num)
    have a2 := (a1.mul hi (by norm_num)).rn (by norm_num)
    have a3 := (a2.mul hi (by norm_num)).rn (by norm_num)
    have a4 := a3.sqrt.rn (by norm_num)
    have a5 := (a4.mul (Near.exact htof.le) (by norm_num)).rn (by norm_num)
    have d : ∀ a, A.div? a (semiD A B r0 r1) = some (rn (a * (1 / semiD A B r0 r1))) := fun a => by
      unfold Arith.div?; rw [div?_ok sp.ne', hA.rd, mul_one_div]; rfl
    refine ⟨_, by
      unfold timeD
      simp only [d, Option.bind_eq_bind, Option.bind_some, Arith.sqrt?, hA.rd]
      rw [sqrt?_ok a3.nonneg]
      rfl, ?_⟩
    have e : √(2 * mu / ((norm r0 + norm r1 + norm (r1 - r0)) / 2) ^ 3) = √(2 * mu * (1 / s) * (1 / s) * (1 / s)) := by
      congr 1
      rw [show (norm r0 + norm r1 + norm (r1 - r0)) / 2 = s by rw [hsd]; ring]
      field_simp
    rw [e, show (35 / 2 ^ 53 : ℝ) = 35 * u by unfold u; norm_num]
    exact (a5.mono (by norm_num : _ ≤ (35 : ℝ))).abs_le

end Err

/-! ## Transfers by almost half a turn, and almost along a ray -/

/-- Round half to even, at a half. -/
theorem rhe_half {m : Int} (hm : m % 2 = 0) : rhe ((m : ℝ) + 1 / 2) = m := by
  have hf : ⌊(m : ℝ) + 1 / 2⌋ = m := by
    rw [Int.floor_eq_iff]; constructor <;> linarith
  unfold rhe
  rw [hf, if_neg (by linarith), if_neg (by linarith), if_pos hm]

theorem rn_sqrt_eval {N : ℝ} (m : ℕ) (e : Int) (h1 : 2 ^ 52 + 1 ≤ m) (h2 : m + 1 < 2 ^ 53) (h3 : ((m - 1 / 2) * 2 ^ e) ^ 2 < N)
    (h4 : N < ((m + 1 / 2) * 2 ^ e) ^ 2) : rn √N = m * 2 ^ e := by
  have he : (0 : ℝ) < 2 ^ e := by positivity
  have m1 : (2 ^ 52 + 1 : ℝ) ≤ m := by exact_mod_cast h1
  have m2 : (m : ℝ) + 1 < 2 ^ 53 := by exact_mod_cast h2
  have s1 : (m - 1 / 2) * 2 ^ e < √N := lt_sqrt_of_sq_lt h3
  have s2 : √N < (m + 1 / 2) * 2 ^ e := by
    rw [sqrt_lt' (by positivity)]; exact h4
  have q1 : (m : ℝ) - 1 / 2 < √N / 2 ^ e := by rw [lt_div_iff₀ he]; exact s1
  have q2 : √N / 2 ^ e < m + 1 / 2 := by rw [div_lt_iff₀ he]; exact s2
  have := rn_eval (x := √N) m e ?_ ?_ ?_
  · rw [this]; norm_cast
  · rw [abs_of_nonneg (sqrt_nonneg _)]
    refine le_trans ?_ s1.le
    exact mul_le_mul_of_nonneg_right (by linarith) he.le
  · rw [abs_of_nonneg (sqrt_nonneg _)]
    refine s2.trans_le ?_
    exact mul_le_mul_of_nonneg_right (by linarith) he.le
  · rw [abs_lt]; push_cast; constructor <;> linarith

/-- What is needed of `xt::linalg::norm`: it is correctly rounded where the sum of the squares is exact. -/
def _root_.Kep3.Blas.Norm2 (B : Blas) : Prop := ∀ a b : ℤ, a ^ 2 + b ^ 2 ≤ 2 ^ 53 → B.norm ⟨a, b, 0⟩ = rn √((a : ℝ) ^ 2 + (b : ℝ) ^ 2)

theorem naive_norm2 {A : Arith} (hA : A.Double) : (Blas.naive A).Norm2 := by
  intro a b h
  have ha : rn ((a : ℝ) * a) = a * a := by
    have := rn_int (K := ℝ) (n := a * a) (by rw [abs_of_nonneg (mul_self_nonneg a)]; nlinarith [sq_nonneg b])
    exact_mod_cast this
  have hb : rn ((b : ℝ) * b) = b * b := by
    have := rn_int (K := ℝ) (n := b * b) (by rw [abs_of_nonneg (mul_self_nonneg b)]; nlinarith [sq_nonneg a])
    exact_mod_cast this
  have hab : rn ((a : ℝ) * a + b * b) = a * a + b * b := by
    have := rn_int (K := ℝ) (n := a * a + b * b) (by rw [abs_of_nonneg (by nlinarith [mul_self_nonneg a, mul_self_nonneg b])]; nlinarith)
    exact_mod_cast this
  show A.rd √(A.dot ⟨a, b, 0⟩ ⟨a, b, 0⟩) = _
  unfold Arith.dot
  simp only [hA.rd, ha, hb, hab, mul_zero, rn_zero, add_zero]
  rw [sq, sq]

/-- A transfer from 14142 km to 70711 km by half a turn less 1e-8 rad. -/
def halfR0 : V3 ℝ := ⟨10000000, 10000000, 0⟩
def halfR1 : V3 ℝ := ⟨-50000000, -49999999, 0⟩
/-- The same radii, a transfer by 1e-8 rad. -/
def rayR1 : V3 ℝ := ⟨50000000, 50000001, 0⟩

theorem rn_zint {n : ℤ} (h : |n| ≤ 2 ^ 53) : rn (n : ℝ) = n := rn_int h

section Witness
variable {A : Arith} (hA : A.Double) {B : Blas} (hB : B.Ok) (hN : B.Norm2)
include hA hN

omit hA in
theorem half_Rs : B.norm halfR0 = 7592501249940124 / 2 ^ 29 := by
  have h := hN 10000000 10000000 (by norm_num)
  rw [rn_sqrt_eval 7592501249940124 (-29) (by norm_num) (by norm_num) (by norm_num) (by norm_num)] at h
  unfold halfR0
  push_cast at h
  rw [h]; norm_num

omit hA in
theorem half_Rf : B.norm halfR1 = 4745313233759445 / 2 ^ 26 := by
  have h := hN (-50000000) (-49999999) (by norm_num)
  rw [rn_sqrt_eval 4745313233759445 (-26) (by norm_num) (by norm_num) (by norm_num) (by norm_num)] at h
  unfold halfR1
  push_cast at h
  rw [h]; norm_num

theorem half_c : chordD A B halfR0 halfR1 = 5694375890001961 / 2 ^ 26 := by
  have h := hN (-60000000) (-59999999) (by norm_num)
  rw [rn_sqrt_eval 5694375890001961 (-26) (by norm_num) (by norm_num) (by norm_num) (by norm_num)] at h
  have e : A.sub halfR1 halfR0 = ⟨-60000000, -59999999, 0⟩ := by
    unfold Arith.sub halfR1 halfR0
    have h1 := rn_zint (n := -60000000) (by norm_num)
    have h2 := rn_zint (n := -59999999) (by norm_num)
    push_cast at h1 h2
    rw [hA.rd, show (-50000000 - 10000000 : ℝ) = -60000000 by norm_num, show (-49999999 - 10000000 : ℝ) = -59999999 by norm_num, h1, h2]
    simp [rn_zero]
  unfold chordD
  rw [e]
  push_cast at h
  rw [h]; norm_num

theorem half_s : semiD A B halfR0 halfR1 = 5694375890001960 / 2 ^ 26 := by
  unfold semiD
  rw [half_c hA hN, half_Rs hN, half_Rf hN, hA.rd]
  have h1 : rn (5694375890001961 / 2 ^ 26 + 7592501249940124 / 2 ^ 29 : ℝ) = 6643438546244476 / 2 ^ 26 := by
    have := rn_eval' (x := (5694375890001961 / 2 ^ 26 + 7592501249940124 / 2 ^ 29 : ℝ)) 6643438546244476 (-26) (by norm_num) (by norm_num)
      (by rw [← rhe_half (m := 6643438546244476) (by norm_num)]; congr 1; norm_num)
    rw [this]; norm_num
  have h2 : rn (6643438546244476 / 2 ^ 26 + 4745313233759445 / 2 ^ 26 : ℝ) = 5694375890001960 / 2 ^ 25 := by
    have := rn_eval' (x := (6643438546244476 / 2 ^ 26 + 4745313233759445 / 2 ^ 26 : ℝ)) 5694375890001960 (-25) (by norm_num) (by norm_num)
      (by rw [← rhe_half (m := 5694375890001960) (by norm_num)]; congr 1; norm_num)
    rw [this]; norm_num
  rw [h1, h2, rn_rep ⟨5694375890001960, -26, by norm_num, by norm_num⟩]
  norm_num

theorem half_lambda2 : lambda2D A B halfR0 halfR1 = some (-(1 / 2 ^ 52)) := by
  unfold lambda2D Arith.div?
  rw [half_c hA hN, half_s hA hN, div?_ok (by norm_num), hA.rd]
  have h1 : rn (5694375890001961 / 2 ^ 26 / (5694375890001960 / 2 ^ 26) : ℝ) = 1 + 1 / 2 ^ 52 := by
    have := rn_eval (x := (5694375890001961 / 2 ^ 26 / (5694375890001960 / 2 ^ 26) : ℝ)) 4503599627370497 (-52) (by norm_num) (by norm_num)
      (by norm_num [abs_lt])
    rw [this]; norm_num
  simp only [Option.map_some, Option.bind_eq_bind, Option.bind_some, h1]
  rw [show (1 - (1 + 1 / 2 ^ 52) : ℝ) = -(1 / 2 ^ 52) by norm_num, rn_rep ⟨-1, -52, by norm_num, by norm_num⟩]
  rfl

omit hA hN in
theorem half_cross : cross halfR0 halfR1 = ⟨0, 0, 10000000⟩ := by unfold halfR0 halfR1; ext <;> norm_num

theorem ray_c : chordD A B halfR0 rayR1 = 7592501344846390 / 2 ^ 27 := by
  have h := hN 40000000 40000001 (by norm_num)
  rw [rn_sqrt_eval 7592501344846390 (-27) (by norm_num) (by norm_num) (by norm_num) (by norm_num)] at h
  have e : A.sub rayR1 halfR0 = ⟨40000000, 40000001, 0⟩ := by
    unfold Arith.sub rayR1 halfR0
    have h1 := rn_zint (n := 40000000) (by norm_num)
    have h2 := rn_zint (n := 40000001) (by norm_num)
    push_cast at h1 h2
    rw [hA.rd, show (50000000 - 10000000 : ℝ) = 40000000 by norm_num, show (50000001 - 10000000 : ℝ) = 40000001 by norm_num, h1, h2]
    simp [rn_zero]
  unfold chordD
  rw [e]
  push_cast at h
  rw [h]; norm_num

omit hA in
theorem ray_Rf : B.norm rayR1 = 4745313328665711 / 2 ^ 26 := by
  have h := hN 50000000 50000001 (by norm_num)
  rw [rn_sqrt_eval 4745313328665711 (-26) (by norm_num) (by norm_num) (by norm_num) (by norm_num)] at h
  unfold rayR1
  push_cast at h
  rw [h]; norm_num

theorem ray_rho : A.div? (A.rd (B.norm halfR0 - B.norm rayR1)) (chordD A B halfR0 rayR1) = some (-(1 + 1 / 2 ^ 52)) := by
  unfold Arith.div?
  rw [ray_c hA hN, half_Rs hN, ray_Rf hN, hA.rd, div?_ok (by norm_num)]
  have h1 : rn (7592501249940124 / 2 ^ 29 - 4745313328665711 / 2 ^ 26 : ℝ) = -(7592501344846391 / 2 ^ 27) := by
    rw [rn_rep ⟨-7592501344846391, -27, by norm_num, by norm_num⟩]; norm_num
  have h2 : rn (-(7592501344846391 / 2 ^ 27) / (7592501344846390 / 2 ^ 27) : ℝ) = -(1 + 1 / 2 ^ 52) := by
    have := rn_eval (x := (-(7592501344846391 / 2 ^ 27) / (7592501344846390 / 2 ^ 27) : ℝ)) (-4503599627370497) (-52)
      (by rw [abs_of_neg (by norm_num)]; norm_num) (by rw [abs_of_neg (by norm_num)]; norm_num)
      (by norm_num [abs_lt])
    rw [this]; norm_num
  rw [h1, Option.map_some, h2]

theorem ray_sigma : A.sqrt? (A.rd (1 - A.rd (-(1 + 1 / 2 ^ 52) * -(1 + 1 / 2 ^ 52)))) = none := by
  have h1 : rn (-(1 + 1 / 2 ^ 52) * -(1 + 1 / 2 ^ 52) : ℝ) = 1 + 1 / 2 ^ 51 := by
    have := rn_eval (x := (-(1 + 1 / 2 ^ 52) * -(1 + 1 / 2 ^ 52) : ℝ)) 4503599627370498 (-52) (by norm_num) (by norm_num) (by norm_num [abs_lt])
    rw [this]; norm_num
  unfold Arith.sqrt? sqrt?
  rw [hA.rd, h1, show (1 - (1 + 1 / 2 ^ 51) : ℝ) = -(1 / 2 ^ 51) by norm_num, rn_rep ⟨-1, -51, by norm_num, by norm_num⟩, if_pos (by norm_num)]
  rfl

omit hA hN in
theorem ray_cross : cross halfR0 rayR1 = ⟨0, 0, 10000000⟩ := by unfold halfR0 rayR1; ext <;> norm_num

omit hA hN in
theorem norm_le_of_sq {v : V3 ℝ} {m : ℝ} (hm : 0 ≤ m) (h : dot v v ≤ m ^ 2) : norm v ≤ m := by
  refine abs_le_of_sq_le_sq' ?_ hm |>.2
  rw [norm_sq]; exact h

include hB

omit hN in
/-- Two positions in the plane of the first two axes give no error. -/
theorem plane_ok {r0 r1 : V3 ℝ} {k : ℝ} (hk : 0 < k) (hc : cross r0 r1 = ⟨0, 0, k⟩) (hs : 40 * u * (norm r0 * norm r1) ≤ k) (cw : Bool) :
    ∃ g, geomD A B r0 r1 cw = .ok g ∧ g.c = chordD A B r0 r1 ∧ g.Rs = B.norm r0 ∧ g.Rf = B.norm r1 ∧
      (lambda2D A B r0 r1 = some (-(1 / 2 ^ 52)) → g.lam = none) := by
  have hne : cross r0 r1 ≠ 0 := by rw [hc]; intro h; have := congrArg V3.z h; simp at this; linarith
  obtain ⟨n0, n1⟩ := ne_of_cross hne
  have R0 := norm_pos n0
  have R1 := norm_pos n1
  have hu := u_pos
  have hn : norm (cross r0 r1) = k := by
    rw [hc]; unfold V3.norm V3.dot
    rw [show (0 * 0 + 0 * 0 + k * k : ℝ) = k ^ 2 by ring, sqrt_sq hk.le]
  obtain ⟨irs, irf, ih, w, its, itf, hno, w0, hz, wp, dw, hits, hitf⟩ := frame_ok hA hB n0 n1 (by rw [hn]; exact hs)
  have wz : w.z ≠ 0 := by
    intro h
    have := (abs_x_le (w - (1 / norm r0 * (1 / norm r1)) • cross r0 r1)).2.2.trans dw
    simp only [V3.sub_z, V3.smul_z, h, hc, zero_sub, abs_neg] at this
    rw [abs_of_pos (by positivity), one_div, one_div, ← mul_inv, inv_mul_le_iff₀ (by positivity)] at this
    have : 0 < u * (norm r0 * norm r1) := by positivity
    linarith
  have ihz : ih.z ≠ 0 := by rw [hz]; exact rn_ne_zero hA hB (div_ne_zero wz wp.ne')
  refine ⟨_, by unfold geomD; rw [hno, if_neg (by simpa using ihz)], rfl, rfl, rfl, ?_⟩
  intro h
  have hsq : A.sqrt? (-(1 / 2 ^ 52)) = none := by unfold Arith.sqrt? sqrt?; rw [if_pos (by norm_num)]; rfl
  simp only [h, Option.bind_eq_bind, Option.bind_some, hsq, Option.bind_none]

/-- **C86.** For a transfer by almost half a turn the solver can return NaN for all velocities: `1 - c / s` is rounded below zero. Without rounding the geometry and
all the velocities are defined. -/
theorem C86_half_turn_nan (cw : Bool) :
    (∃ g, geomD A B halfR0 halfR1 cw = .ok g ∧ g.lam = none ∧ ∀ mu x, velocitiesD A g mu x = none) ∧
    ∃ g, geom halfR0 halfR1 cw = .ok g ∧ ∀ mu, 0 < mu → ∀ x, ∃ v, velocities g mu x = some v := by
  constructor
  · have hR0 : norm halfR0 ≤ 20000000 := norm_le_of_sq (by norm_num) (by unfold halfR0 V3.dot; norm_num)
    have hR1 : norm halfR1 ≤ 80000000 := norm_le_of_sq (by norm_num) (by unfold halfR1 V3.dot; norm_num)
    have hu := u_pos
    have hus := u_small
    have hp : norm halfR0 * norm halfR1 ≤ 20000000 * 80000000 := mul_le_mul hR0 hR1 (norm_nonneg _) (by norm_num)
    have hs : 40 * u * (norm halfR0 * norm halfR1) ≤ 10000000 := by
      have := mul_le_mul hus hp (mul_nonneg (norm_nonneg _) (norm_nonneg _)) (by norm_num)
      linarith
    obtain ⟨g, hg, -, -, -, hl⟩ := plane_ok hA hB (by norm_num) half_cross hs cw
    have hlam := hl (half_lambda2 hA hN)
    refine ⟨g, hg, hlam, fun mu x => ?_⟩
    unfold velocitiesD
    simp [hlam]
  · obtain ⟨g, f, ct, st, rho, sg, hg, S⟩ := geom_spec (r0 := halfR0) (r1 := halfR1) cw (by rw [half_cross]; norm_num)
    exact ⟨g, hg, fun mu hmu x => ⟨_, velocities_ok S hmu x⟩⟩

/-- **C86.** For a transfer by a small angle between different distances the solver can return NaN for all velocities: `1 - rho * rho` is rounded below zero. -/
theorem C86_small_angle_nan (cw : Bool) :
    (∃ g, geomD A B halfR0 rayR1 cw = .ok g ∧ ∀ mu x, velocitiesD A g mu x = none) ∧
    ∃ g, geom halfR0 rayR1 cw = .ok g ∧ ∀ mu, 0 < mu → ∀ x, ∃ v, velocities g mu x = some v := by
  constructor
  · have hR0 : norm halfR0 ≤ 20000000 := norm_le_of_sq (by norm_num) (by unfold halfR0 V3.dot; norm_num)
    have hR1 : norm rayR1 ≤ 80000000 := norm_le_of_sq (by norm_num) (by unfold rayR1 V3.dot; norm_num)
    have hu := u_pos
    have hus := u_small
    have hp : norm halfR0 * norm rayR1 ≤ 20000000 * 80000000 := mul_le_mul hR0 hR1 (norm_nonneg _) (by norm_num)
    have hs : 40 * u * (norm halfR0 * norm rayR1) ≤ 10000000 := by
      have := mul_le_mul hus hp (mul_nonneg (norm_nonneg _) (norm_nonneg _)) (by norm_num)
      linarith
    obtain ⟨g, hg, hc, h0, h1, -⟩ := plane_ok hA hB (by norm_num) ray_cross hs cw
    refine ⟨g, hg, fun mu x => ?_⟩
    unfold velocitiesD
    rw [hc, h0, h1]
    simp only [ray_rho hA hN, Option.bind_eq_bind, Option.bind_some, ray_sigma hA hN, Option.bind_none]
    cases A.sqrt? (A.rd (A.rd (mu * g.s) / 2)) <;> rfl
  · obtain ⟨g, f, ct, st, rho, sg, hg, S⟩ := geom_spec (r0 := halfR0) (r1 := rayR1) cw (by rw [ray_cross]; norm_num)
    exact ⟨g, hg, fun mu hmu x => ⟨_, velocities_ok S hmu x⟩⟩

end Witness

/-! ## A case -/

/-- A quarter turn between circles of radius 1 and 2 meets the hypotheses of `C86_numbers_partial` and `C86_accuracy`. -/
example : let r0 : V3 ℝ := ⟨1, 0, 0⟩; let r1 : V3 ℝ := ⟨0, 2, 0⟩
    r0 ≠ 0 ∧ 40 / 2 ^ 53 * (norm r0 + norm r1 + norm (r1 - r0)) ≤ norm r0 + norm r1 - norm (r1 - r0) ∧
      40 / 2 ^ 53 * (norm r0 + norm r1 + norm (r1 - r0)) ≤ norm (r1 - r0) - |norm r0 - norm r1| := by
  intro r0 r1
  have h0 : norm r0 = 1 := by
    show √(1 * 1 + 0 * 0 + 0 * 0) = 1
    norm_num
  have h1 : norm r1 = 2 := by
    show √(0 * 0 + 2 * 2 + 0 * 0) = 2
    rw [show (0 * 0 + 2 * 2 + 0 * 0 : ℝ) = 2 ^ 2 by norm_num, sqrt_sq (by norm_num)]
  have hc : norm (r1 - r0) = √5 := by
    show √((0 - 1) * (0 - 1) + (2 - 0) * (2 - 0) + (0 - 0) * (0 - 0)) = √5
    norm_num
  have s1 : (2.2 : ℝ) < √5 := lt_sqrt_of_sq_lt (by norm_num)
  have s2 : √5 < (2.3 : ℝ) := by rw [sqrt_lt' (by norm_num)]; norm_num
  rw [h0, h1, hc]
  refine ⟨fun h => ?_, ?_, ?_⟩
  · have := congrArg V3.x h; simp [r0] at this
  · norm_num at *; linarith
  · rw [show |(1 : ℝ) - 2| = 1 by norm_num]; norm_num at *; linarith

/-- The assumptions on the libraries can be met together. -/
example : Arith.rounded.Double ∧ (Blas.naive Arith.rounded).Ok ∧ (Blas.naive Arith.rounded).Norm2 :=
  ⟨Arith.rounded_double, Blas.naive_ok Arith.rounded_double, naive_norm2 Arith.rounded_double⟩

end Lambert
end Kep3
