import Verif.Elements.Props91c

/-!
# C91: the longitude in double precision
-/

namespace Kep3
open Real V3 Fl

/-- A scalar product of two pairs, the second known exactly. -/
theorem detCol_err {A : Arith} (hA : A.Double) {a a' c c' b d R t : ℝ} (ha : |a| ≤ 1) (hc : |c| ≤ 1) (hb : |b| ≤ R) (hd : |d| ≤ R) (ht : 200 * u ≤ t) (ht' : t ≤ 1 / 1000)
    (da : |a' - a| ≤ t) (dc : |c' - c| ≤ t) : |A.rd (A.rd (a' * b) + A.rd (c' * d)) - (a * b + c * d)| ≤ 2.1 * t * R := by
  have hu := u_pos
  have hus := u_small
  have R0 : 0 ≤ R := (abs_nonneg _).trans hb
  have t0 : 0 ≤ t := by linarith
  rw [hA.rd]
  have p : ∀ {x x' y : ℝ}, |x| ≤ 1 → |y| ≤ R → |x' - x| ≤ t → |rn (x' * y) - x * y| ≤ t * R + 1.01 * u * R ∧ |rn (x' * y)| ≤ 1.01 * R := by
    intro x x' y h1 h2 h3
    have e := rn_err' (x' * y)
    have b1 : |x' * y - x * y| ≤ t * R := by
      rw [← sub_mul, abs_mul]; exact mul_le_mul h3 h2 (abs_nonneg _) t0
    have b2 : |x * y| ≤ R := by
      rw [abs_mul]; exact (mul_le_mul h1 h2 (abs_nonneg _) zero_le_one).trans (by linarith)
    have b3 : |x' * y| ≤ 1.001 * R := by
      have := abs_add_le (x' * y - x * y) (x * y)
      rw [sub_add_cancel] at this
      have : t * R ≤ 0.001 * R := mul_le_mul_of_nonneg_right (by linarith) R0
      linarith
    have b4 := mul_le_mul_of_nonneg_left b3 hu.le
    have b5 : u * R ≤ 0.001 * R := mul_le_mul_of_nonneg_right (by linarith) R0
    have := abs_add_le (rn (x' * y) - x' * y) (x' * y - x * y)
    rw [sub_add_sub_cancel] at this
    have := abs_add_le (rn (x' * y) - x' * y) (x' * y)
    rw [sub_add_cancel] at this
    have : 0 ≤ u * R := by positivity
    constructor <;> linarith
  obtain ⟨p1, p2⟩ := p ha hb da
  obtain ⟨q1, q2⟩ := p hc hd dc
  have e := rn_err' (rn (a' * b) + rn (c' * d))
  have s := abs_add_le (rn (a' * b)) (rn (c' * d))
  have e2 := mul_le_mul_of_nonneg_left (show |rn (a' * b) + rn (c' * d)| ≤ 2.02 * R by linarith) hu.le
  have f1 := abs_add_le (rn (a' * b) - a * b) (rn (c' * d) - c * d)
  have f2 := abs_add_le (rn (rn (a' * b) + rn (c' * d)) - (rn (a' * b) + rn (c' * d))) (rn (a' * b) - a * b + (rn (c' * d) - c * d))
  rw [show rn (rn (a' * b) + rn (c' * d)) - (rn (a' * b) + rn (c' * d)) + (rn (a' * b) - a * b + (rn (c' * d) - c * d))
    = rn (rn (a' * b) + rn (c' * d)) - (a * b + c * d) by ring] at f2
  have : u * R ≤ t / 200 * R := mul_le_mul_of_nonneg_right (by linarith) R0
  have : 0 ≤ t * R := by positivity
  linarith

/-- The coordinate computed with Cramer's rule. -/
theorem cramer_err {n n' d d' X R t : ℝ} (ht : 200 * u ≤ t) (ht' : t ≤ 1 / 1000) (hd : 1 / 2 ≤ |d'|) (hX : |X| ≤ R) (hn : n = d * X)
    (dn : |n' - n| ≤ 2.1 * t * R) (dd : |d' - d| ≤ 4.2 * t) : |rn (n' / d') - X| ≤ 12.7 * t * R := by
  have hu := u_pos
  have hus := u_small
  have R0 : 0 ≤ R := (abs_nonneg _).trans hX
  have t0 : 0 ≤ t := by linarith
  have d0 : 0 < |d'| := by linarith
  have e : n' / d' - X = (n' - n - X * (d' - d)) / d' := by
    rw [hn]; have := abs_pos.1 d0; field_simp; ring
  have b1 : |n' / d' - X| ≤ 12.6 * t * R := by
    rw [e, abs_div, div_le_iff₀ d0]
    have h1 := abs_sub (n' - n) (X * (d' - d))
    rw [abs_mul] at h1
    have h2 : |X| * |d' - d| ≤ R * (4.2 * t) := mul_le_mul hX dd (abs_nonneg _) R0
    have h3 : 12.6 * t * R * (1 / 2) ≤ 12.6 * t * R * |d'| := mul_le_mul_of_nonneg_left hd (by positivity)
    linarith
  have b2 : |n' / d'| ≤ 1.1 * R := by
    have := abs_add_le (n' / d' - X) X
    rw [sub_add_cancel] at this
    have : 12.6 * t * R ≤ 0.1 * R := mul_le_mul_of_nonneg_right (by linarith) R0
    linarith
  have b3 := mul_le_mul_of_nonneg_left b2 hu.le
  have := rn_err' (n' / d')
  have := abs_add_le (rn (n' / d') - n' / d') (n' / d' - X)
  rw [sub_add_sub_cancel] at this
  have : u * R ≤ t / 200 * R := mul_le_mul_of_nonneg_right (by linarith) R0
  have : 0 ≤ t * R := by positivity
  linarith

/-- The determinant `a b - c d` as a sum of products. -/
theorem det2D_add (A : Arith) (hA : A.Double) (a b c d : ℝ) : det2D A a b c d = A.rd (A.rd (a * b) + A.rd (-c * d)) := by
  unfold det2D; rw [hA.rd, neg_mul, rn_neg, sub_eq_add_neg]

/-- `X` and `Y` are accurate when the frame is. -/
theorem eqXY_err {A : Arith} (hA : A.Double) {fv gv fv' gv' r w : V3 ℝ} {X Y R t : ℝ} (hw : dot w w = 1) (hc : cross fv gv = w) (hr : r = X • fv + Y • gv)
    (ht : 200 * u ≤ t) (ht' : t ≤ 1 / 1000) (hX : |X| ≤ R) (hY : |Y| ≤ R) (hR : |r.x| ≤ R ∧ |r.y| ≤ R ∧ |r.z| ≤ R)
    (hf : |fv.x| ≤ 1 ∧ |fv.y| ≤ 1 ∧ |fv.z| ≤ 1) (hg : |gv.x| ≤ 1 ∧ |gv.y| ≤ 1 ∧ |gv.z| ≤ 1)
    (df : |fv'.x - fv.x| ≤ t ∧ |fv'.y - fv.y| ≤ t ∧ |fv'.z - fv.z| ≤ t) (dg : |gv'.x - gv.x| ≤ t ∧ |gv'.y - gv.y| ≤ t ∧ |gv'.z - gv.z| ≤ t) :
    ∃ X' Y', eqXYD A fv' gv' r = some (X', Y') ∧ |X' - X| ≤ 12.7 * t * R ∧ |Y' - Y| ≤ 12.7 * t * R := by
  have hu := u_pos
  have t0 : 0 ≤ t := by linarith
  have rx : r.x = X * fv.x + Y * gv.x := by rw [hr]; rfl
  have ry : r.y = X * fv.y + Y * gv.y := by rw [hr]; rfl
  have rz : r.z = X * fv.z + Y * gv.z := by rw [hr]; rfl
  have d1 : gv.y * fv.x - fv.y * gv.x = w.z := by rw [← hc]; simp; ring
  have d2 : gv.z * fv.x - fv.z * gv.x = -w.y := by rw [← hc]; simp; ring
  have d3 : gv.z * fv.y - fv.z * gv.y = w.x := by rw [← hc]; simp; ring
  have neg : ∀ {a a' : ℝ}, |a' - a| ≤ t → |-a' - -a| ≤ t := fun {a a'} h => by rwa [neg_sub_neg, abs_sub_comm]
  have dt : ∀ {a a' b b' c c' d d' : ℝ}, |a| ≤ 1 → |b| ≤ 1 → |c| ≤ 1 → |d| ≤ 1 → |a' - a| ≤ t → |b' - b| ≤ t → |c' - c| ≤ t → |d' - d| ≤ t →
      |det2D A a' b' c' d' - (a * b - c * d)| ≤ 4.2 * t := by
    intro a a' b b' c c' d d' ha hb hcc hd da db dc dd
    have b1 : |b'| ≤ 1.001 := by
      have := abs_add_le (b' - b) b; rw [sub_add_cancel] at this; linarith
    have b2 : |d'| ≤ 1.001 := by
      have := abs_add_le (d' - d) d; rw [sub_add_cancel] at this; linarith
    have h1 := detCol_err hA ha (c := -c) (c' := -c') (by rwa [abs_neg]) b1 b2 ht ht' da (neg dc)
    rw [det2D_add A hA]
    have h2 : |a * b' + -c * d' - (a * b - c * d)| ≤ 2 * t := by
      rw [show a * b' + -c * d' - (a * b - c * d) = a * (b' - b) - c * (d' - d) by ring]
      refine (abs_sub _ _).trans ?_
      rw [abs_mul, abs_mul]
      have := mul_le_mul ha db (abs_nonneg _) zero_le_one
      have := mul_le_mul hcc dd (abs_nonneg _) zero_le_one
      linarith
    have := abs_add_le (A.rd (A.rd (a' * b') + A.rd (-c' * d')) - (a * b' + -c * d')) (a * b' + -c * d' - (a * b - c * d))
    rw [sub_add_sub_cancel] at this
    linarith
  have e1 := dt hg.2.1 hf.1 hf.2.1 hg.1 dg.2.1 df.1 df.2.1 dg.1
  have e2 := dt hg.2.2 hf.1 hf.2.2 hg.1 dg.2.2 df.1 df.2.2 dg.1
  have e3 := dt hg.2.2 hf.2.1 hf.2.2 hg.2.1 dg.2.2 df.2.1 df.2.2 dg.2.1
  rw [d1] at e1
  rw [d2] at e2
  rw [d3] at e3
  have big : ∀ {D E : ℝ}, |E - D| ≤ 4.2 * t → 1 / 3 ≤ D ^ 2 → 1 / 2 ≤ |E| := by
    intro D E h1 h2
    rw [← sq_abs] at h2
    have h3 : 0.57 ≤ |D| := by nlinarith [abs_nonneg D]
    have h4 := abs_sub_abs_le_abs_sub D E
    rw [abs_sub_comm] at h4
    linarith
  have hmax : 1 / 2 ≤ max |det2D A gv'.y fv'.x fv'.y gv'.x| (max |det2D A gv'.z fv'.x fv'.z gv'.x| |det2D A gv'.z fv'.y fv'.z gv'.y|) := by
    unfold dot at hw
    rcases le_or_gt (1 / 3) (w.z ^ 2) with h1 | h1
    · exact (big e1 h1).trans (le_max_left _ _)
    rcases le_or_gt (1 / 3) ((-w.y) ^ 2) with h2 | h2
    · exact (big e2 h2).trans ((le_max_left _ _).trans (le_max_right _ _))
    exact (big e3 (by nlinarith)).trans ((le_max_right _ _).trans (le_max_right _ _))
  have nz : ∀ {x : ℝ}, 1 / 2 ≤ |x| → x ≠ 0 := fun {x} h h0 => by rw [h0, abs_zero] at h; norm_num at h
  -- the numerators
  have num : ∀ {a a' c c' b d n : ℝ}, |a| ≤ 1 → |c| ≤ 1 → |b| ≤ R → |d| ≤ R → |a' - a| ≤ t → |c' - c| ≤ t → n = a * b - c * d →
      |det2D A a' b c' d - n| ≤ 2.1 * t * R := by
    intro a a' c c' b d n ha hcc hb hd da dc hn
    have := detCol_err hA ha (c := -c) (c' := -c') (by rwa [abs_neg]) hb hd ht ht' da (neg dc)
    rw [det2D_add A hA, hn, show a * b - c * d = a * b + -c * d by ring]
    exact this
  have num' : ∀ {a a' c c' b d n : ℝ}, |a| ≤ 1 → |c| ≤ 1 → |b| ≤ R → |d| ≤ R → |a' - a| ≤ t → |c' - c| ≤ t → n = -a * b + c * d →
      |rn (rn (-a' * b) + rn (c' * d)) - n| ≤ 2.1 * t * R := by
    intro a a' c c' b d n ha hcc hb hd da dc hn
    rw [hn, ← hA.rd]
    exact detCol_err hA (a := -a) (a' := -a') (by rwa [abs_neg]) hcc hb hd ht ht' (neg da) dc
  unfold eqXYD
  dsimp only
  unfold Arith.div?
  split_ifs with i1 i2
  · have hb := hmax; rw [← i1] at hb
    rw [div?_ok (nz hb), div?_ok (nz hb)]
    simp only [Option.map_some, Option.bind_eq_bind, Option.bind_some, Option.pure_def, hA.rd]
    refine ⟨_, _, rfl, ?_, ?_⟩
    · exact cramer_err ht ht' hb hX (n := w.z * X) rfl (num hg.2.1 hg.1 hR.1 hR.2.1 dg.2.1 dg.1 (by rw [← d1, rx, ry]; ring)) e1
    · exact cramer_err ht ht' hb hY (n := w.z * Y) rfl (num' hf.2.1 hf.1 hR.1 hR.2.1 df.2.1 df.1 (by rw [← d1, rx, ry]; ring)) e1
  · have hb := hmax; rw [← i2] at hb
    rw [div?_ok (nz hb), div?_ok (nz hb)]
    simp only [Option.map_some, Option.bind_eq_bind, Option.bind_some, Option.pure_def, hA.rd]
    refine ⟨_, _, rfl, ?_, ?_⟩
    · exact cramer_err ht ht' hb hX (n := -w.y * X) rfl (num hg.2.2 hg.1 hR.1 hR.2.2 dg.2.2 dg.1 (by rw [← d2, rx, rz]; ring)) e2
    · exact cramer_err ht ht' hb hY (n := -w.y * Y) rfl (num' hf.2.2 hf.1 hR.1 hR.2.2 df.2.2 df.1 (by rw [← d2, rx, rz]; ring)) e2
  · have i3 : |det2D A gv'.z fv'.y fv'.z gv'.y| = max |det2D A gv'.y fv'.x fv'.y gv'.x| (max |det2D A gv'.z fv'.x fv'.z gv'.x| |det2D A gv'.z fv'.y fv'.z gv'.y|) := by
      rcases max_choice |det2D A gv'.y fv'.x fv'.y gv'.x| (max |det2D A gv'.z fv'.x fv'.z gv'.x| |det2D A gv'.z fv'.y fv'.z gv'.y|) with h1 | h1
      · exact absurd h1.symm i1
      · rcases max_choice |det2D A gv'.z fv'.x fv'.z gv'.x| |det2D A gv'.z fv'.y fv'.z gv'.y| with h2 | h2
        · exact absurd (h1.trans h2).symm i2
        · exact (h1.trans h2).symm
    have hb := hmax; rw [← i3] at hb
    rw [div?_ok (nz hb), div?_ok (nz hb)]
    simp only [Option.map_some, Option.bind_eq_bind, Option.bind_some, Option.pure_def, hA.rd]
    refine ⟨_, _, rfl, ?_, ?_⟩
    · exact cramer_err ht ht' hb hX (n := w.x * X) rfl (num hg.2.2 hg.2.1 hR.2.1 hR.2.2 dg.2.2 dg.2.1 (by rw [← d3, ry, rz]; ring)) e3
    · exact cramer_err ht ht' hb hY (n := w.x * Y) rfl (num' hf.2.2 hf.2.1 hR.2.1 hR.2.2 df.2.2 df.2.1 (by rw [← d3, ry, rz]; ring)) e3

/-- A vector of the orbital plane in the equinoctial frame. -/
theorem eqPlane {w r : V3 ℝ} {I : ℝ} (hII : I * I = 1) (hww : dot w w = 1) (hD : 1 + I * w.z ≠ 0) (hr : dot r w = 0) :
    ∃ X Y, r = X • eqF I (-w.y / (1 + I * w.z)) (w.x / (1 + I * w.z)) + Y • eqG I (-w.y / (1 + I * w.z)) (w.x / (1 + I * w.z)) ∧
      cross (eqF I (-w.y / (1 + I * w.z)) (w.x / (1 + I * w.z))) (eqG I (-w.y / (1 + I * w.z)) (w.x / (1 + I * w.z))) = w ∧
      X * X + Y * Y = dot r r := by
  obtain ⟨fE, gE⟩ := eqFrame_of_w hII hww hD
  generalize eqF I (-w.y / (1 + I * w.z)) (w.x / (1 + I * w.z)) = fv at *
  generalize eqG I (-w.y / (1 + I * w.z)) (w.x / (1 + I * w.z)) = gv at *
  have hw' : w.x ^ 2 + w.y ^ 2 = (1 + I * w.z) * (2 - (1 + I * w.z)) := by
    unfold dot at hww; linear_combination hww + w.z ^ 2 * hII
  have hIwz : I * (1 + I * w.z) = I + w.z := by linear_combination w.z * hII
  have hff : dot fv fv = 1 := by
    rw [fE]; simp only [dot]; field_simp
    linear_combination (w.x ^ 2) * hw' + (w.x ^ 2 * (1 + I * w.z) ^ 2) * hII
  have hcr : cross w fv = gv := by
    rw [fE, gE]
    ext
    · simp only [cross_x]; field_simp; linear_combination (-w.x * w.y) * hIwz
    · simp only [cross_y]
      generalize 1 + I * w.z = D at hD hw' hIwz
      field_simp
      linear_combination I * hw' - (D - w.x ^ 2) * hIwz
    · simp only [cross_z]; field_simp; ring
  have hfw : dot fv w = 0 := by
    rw [fE]; simp only [dot]; field_simp
    linear_combination (-w.x) * hw'
  have hgg : dot gv gv = 1 := by rw [← hcr, lagrange, hww, hff, V3.dot_comm, hfw]; ring
  have hgf : dot gv fv = 0 := by rw [← hcr]; exact cross_dot_self_right _ _
  have hgw : dot gv w = 0 := by rw [← hcr]; exact cross_dot_self_left _ _
  have hfg : cross fv gv = w := by
    have k : cross fv (cross w fv) = dot fv fv • w - dot fv w • fv := by ext <;> simp [dot] <;> ring
    rw [hcr, hff, hfw] at k
    rw [k]; ext <;> simp
  have h1 : r = dot r fv • fv + dot r gv • gv := by
    refine eq_of_frame hff hww hfw ?_ ?_ ?_
    · rw [add_dot, smul_dot, smul_dot, hff, hgf]; ring
    · rw [hcr, add_dot, smul_dot, smul_dot, hgg, V3.dot_comm fv gv, hgf]; ring
    · rw [add_dot, smul_dot, smul_dot, hfw, hgw, hr]; ring
  refine ⟨dot r fv, dot r gv, h1, hfg, ?_⟩
  have k : dot r r = dot (dot r fv • fv + dot r gv • gv) (dot r fv • fv + dot r gv • gv) := by rw [← h1]
  simp only [add_dot, dot_add, smul_dot, dot_smul, hff, hgg, hgf, V3.dot_comm fv gv] at k
  rw [k]; ring

/-- The direction of a vector close to a unit vector. -/
theorem dir_err {a b x y e : ℝ} (hab : a * a + b * b = 1) (he : e ≤ 1 / 10) (hx : |x - a| ≤ e) (hy : |y - b| ≤ e) :
    |cos (atan2 y x) - a| ≤ 4 * e ∧ |sin (atan2 y x) - b| ≤ 4 * e := by
  have e0 : 0 ≤ e := (abs_nonneg _).trans hx
  have ha : |a| ≤ 1 := by rw [abs_le]; constructor <;> nlinarith
  have hb : |b| ≤ 1 := by rw [abs_le]; constructor <;> nlinarith
  obtain ⟨a1, a2⟩ := abs_le.1 ha
  obtain ⟨b1, b2⟩ := abs_le.1 hb
  obtain ⟨x1, x2⟩ := abs_le.1 hx
  obtain ⟨y1, y2⟩ := abs_le.1 hy
  have hn : |x ^ 2 + y ^ 2 - 1| ≤ 4.2 * e := by
    have k : x ^ 2 + y ^ 2 - 1 = 2 * (a * (x - a) + b * (y - b)) + ((x - a) ^ 2 + (y - b) ^ 2) := by linear_combination hab
    have k1 : |a * (x - a) + b * (y - b)| ≤ 2 * e := by
      refine (abs_add_le _ _).trans ?_
      rw [abs_mul, abs_mul]
      have := mul_le_mul ha hx (abs_nonneg _) zero_le_one
      have := mul_le_mul hb hy (abs_nonneg _) zero_le_one
      linarith
    have k2 : (x - a) ^ 2 ≤ e * e := by rw [← sq_abs, sq]; exact mul_le_mul hx hx (abs_nonneg _) e0
    have k3 : (y - b) ^ 2 ≤ e * e := by rw [← sq_abs, sq]; exact mul_le_mul hy hy (abs_nonneg _) e0
    obtain ⟨k4, k5⟩ := abs_le.1 k1
    have := sq_nonneg (x - a)
    have := sq_nonneg (y - b)
    rw [k, abs_le]
    constructor <;> nlinarith
  obtain ⟨n1, n2⟩ := abs_le.1 hn
  have hpos : 0 < x ^ 2 + y ^ 2 := by linarith
  have c := atan2_cos hpos
  have s := atan2_sin hpos
  have ns := mul_self_sqrt hpos.le
  have n0 := sqrt_nonneg (x ^ 2 + y ^ 2)
  generalize √(x ^ 2 + y ^ 2) = n at *
  have hn1 : |n - 1| ≤ 3 * e := by
    have k : (n - 1) * (n + 1) = x ^ 2 + y ^ 2 - 1 := by linear_combination ns
    have k2 : |n - 1| * (n + 1) ≤ 4.2 * e := by
      rw [← abs_of_nonneg (show 0 ≤ n + 1 by linarith), ← abs_mul, k]; exact hn
    have k3 : 0.7 ≤ n := by nlinarith
    have := mul_le_mul_of_nonneg_left (show 1.7 ≤ n + 1 by linarith) (abs_nonneg (n - 1))
    linarith
  have fin : ∀ {t z d : ℝ}, |t| ≤ 1 → n * t = z → |z - d| ≤ e → |t - d| ≤ 4 * e := by
    intro t z d ht hz hd
    rw [show t - d = (z - d) - (n - 1) * t by rw [← hz]; ring]
    refine (abs_sub _ _).trans ?_
    rw [abs_mul]
    have := mul_le_mul hn1 ht (abs_nonneg _) (by linarith)
    linarith
  exact ⟨fin (abs_cos_le_one _) c hx, fin (abs_sin_le_one _) s hy⟩

/-- The normalised coordinates. -/
theorem coordD_err {S R n Z Z' : ℝ} (hS : 1 ≤ S) (ht : u * S ≤ 1 / 1000000) (hR : 0 < R) (nR : Near 5 R n) (hZ : |Z| ≤ R)
    (hd : |Z' - Z| ≤ 12.7 * (221 * (u * S)) * R) : |rn (Z' / n) - Z / R| ≤ 2850 * (u * S) := by
  have hu := u_pos
  have hus := u_small
  have huS : u ≤ u * S := le_mul_of_one_le_right hu.le hS
  have hB' := nR.pos hR
  have dn := nR.abs_le
  have uR : u * R ≤ 0.001 * R := mul_le_mul_of_nonneg_right (by linarith) hR.le
  have low : 0.99 * R ≤ n := by
    have := (abs_le.1 dn).1
    linarith
  have e : Z' / n - Z / R = ((Z' - Z) - Z / R * (n - R)) / n := by field_simp; ring
  have zr : |Z / R| ≤ 1 := by rw [abs_div, abs_of_pos hR, div_le_one hR]; exact hZ
  have q1 : |Z' / n - Z / R| ≤ 2845 * (u * S) := by
    rw [e, abs_div, abs_of_pos hB', div_le_iff₀ hB']
    have g1 := abs_sub (Z' - Z) (Z / R * (n - R))
    rw [abs_mul] at g1
    have g2 := mul_le_mul zr dn (abs_nonneg _) zero_le_one
    have g3 : 2845 * (u * S) * (0.99 * R) ≤ 2845 * (u * S) * n := mul_le_mul_of_nonneg_left low (by positivity)
    have g4 : u * R ≤ u * S * R := mul_le_mul_of_nonneg_right huS hR.le
    have g5 : 0 ≤ u * S * R := by positivity
    linarith
  have q2 : |Z' / n| ≤ 2 := by
    have := abs_add_le (Z' / n - Z / R) (Z / R)
    rw [sub_add_cancel] at this
    linarith
  have q3 := mul_le_mul_of_nonneg_left q2 hu.le
  have := rn_err' (Z' / n)
  have := abs_add_le (rn (Z' / n) - Z' / n) (Z' / n - Z / R)
  rw [sub_add_sub_cancel] at this
  linarith

/-- A direction in the equinoctial frame. -/
theorem frame_dir {I h k X Y R c s e : ℝ} {r : V3 ℝ} (hI : I = 1 ∨ I = -1) (hR : 0 < R) (hr : r = X • eqF I h k + Y • eqG I h k)
    (hc : |X / R - c| ≤ e) (hs : |Y / R - s| ≤ e) : norm (r - R • (c • eqF I h k + s • eqG I h k)) ≤ 1.45 * e * R := by
  have e0 : 0 ≤ e := (abs_nonneg _).trans hc
  have ev : r - R • (c • eqF I h k + s • eqG I h k) = R •
      (⟨(X / R - c) * (eqF I h k).x + (Y / R - s) * (eqG I h k).x, (X / R - c) * (eqF I h k).y + (Y / R - s) * (eqG I h k).y,
        (X / R - c) * (eqF I h k).z + (Y / R - s) * (eqG I h k).z⟩ : V3 ℝ) := by
    rw [hr]
    ext
    · simp only [sub_x, smul_x, add_x]; field_simp; ring
    · simp only [sub_y, smul_y, add_y]; field_simp; ring
    · simp only [sub_z, smul_z, add_z]; field_simp; ring
  rw [ev, norm_smul_pos' hR, eqFrame_norm hI, mul_comm R]
  refine mul_le_mul_of_nonneg_right ?_ hR.le
  rw [show 1.45 * e = √((1.45 * e) * (1.45 * e)) from (sqrt_mul_self (by positivity)).symm]
  apply sqrt_le_sqrt
  have k1 := mul_le_mul hc hc (abs_nonneg _) e0
  have k2 := mul_le_mul hs hs (abs_nonneg _) e0
  rw [abs_mul_abs_self] at k1 k2
  nlinarith [mul_nonneg e0 e0]

/-- `h` and `k` as an intermediate result. -/
theorem hkD_of {A : Libm} {B : Blas} {x : RV ℝ} {mu : ℝ} {b : Bool} {h' k' : ℝ} (e1 : (ic2eqD A B x mu b).h = some h') (e2 : (ic2eqD A B x mu b).k = some k') :
    hkD A.toArith B x (sgnI b) = some (h', k') := by
  unfold ic2eqD at e1 e2
  dsimp only at e1 e2
  rcases hh : hkD A.toArith B x (sgnI b) with _ | hk
  · rw [hh] at e1; cases e1
  · rw [hh] at e1 e2
    simp only [Option.bind_eq_bind, Option.bind_some, Option.pure_def, Option.some.injEq] at e1 e2
    rw [← e1, ← e2]

/-- The position in the equinoctial frame of the orbit. -/
theorem eqPlane_state {x : RV ℝ} (b : Bool) (hN : 0 < norm (cross x.r x.v)) (hz : 0 ≤ sgnI b * (cross x.r x.v).z) {h k : ℝ}
    (hh : h = -(cross x.r x.v).y / (norm (cross x.r x.v) + sgnI b * (cross x.r x.v).z)) (hk : k = (cross x.r x.v).x / (norm (cross x.r x.v) + sgnI b * (cross x.r x.v).z)) :
    ∃ X Y w, dot w w = 1 ∧ x.r = X • eqF (sgnI b) h k + Y • eqG (sgnI b) h k ∧ cross (eqF (sgnI b) h k) (eqG (sgnI b) h k) = w ∧
      X * X + Y * Y = norm x.r * norm x.r := by
  have hII : sgnI b * sgnI b = 1 := sgnI_sq b
  obtain ⟨X, Y, hXY, hfg, hn⟩ := eqPlane (w := (1 / norm (cross x.r x.v)) • cross x.r x.v) (r := x.r) hII
    (by rw [smul_dot, dot_smul, ← norm_mul_self]; field_simp)
    (by rw [smul_z]
        have : sgnI b * (1 / norm (cross x.r x.v) * (cross x.r x.v).z) = 1 / norm (cross x.r x.v) * (sgnI b * (cross x.r x.v).z) := by ring
        rw [this]
        positivity)
    (by rw [dot_smul, dot_cross_self_left, mul_zero])
  have hww : dot ((1 / norm (cross x.r x.v)) • cross x.r x.v) ((1 / norm (cross x.r x.v)) • cross x.r x.v) = 1 := by
    rw [smul_dot, dot_smul, ← norm_mul_self]; field_simp
  have fh : -((1 / norm (cross x.r x.v)) • cross x.r x.v).y / (1 + sgnI b * ((1 / norm (cross x.r x.v)) • cross x.r x.v).z) = h := by
    rw [hh, smul_y, smul_z]
    have : 0 < norm (cross x.r x.v) + sgnI b * (cross x.r x.v).z := by linarith
    have : 1 + sgnI b * (1 / norm (cross x.r x.v) * (cross x.r x.v).z) = (norm (cross x.r x.v) + sgnI b * (cross x.r x.v).z) / norm (cross x.r x.v) := by field_simp
    rw [this]; field_simp
  have fk : ((1 / norm (cross x.r x.v)) • cross x.r x.v).x / (1 + sgnI b * ((1 / norm (cross x.r x.v)) • cross x.r x.v).z) = k := by
    rw [hk, smul_x, smul_z]
    have : 0 < norm (cross x.r x.v) + sgnI b * (cross x.r x.v).z := by linarith
    have : 1 + sgnI b * (1 / norm (cross x.r x.v) * (cross x.r x.v).z) = (norm (cross x.r x.v) + sgnI b * (cross x.r x.v).z) / norm (cross x.r x.v) := by field_simp
    rw [this]; field_simp
  rw [fh, fk] at hXY hfg
  exact ⟨X, Y, _, hww, hXY, hfg, hn.trans (norm_mul_self _).symm⟩

/-- **C91, accuracy of the longitude**: on the right side of the reference plane, the direction the computed longitude gives in the equinoctial frame of the orbit is that of
the position, up to 17000 units of roundoff divided by the sine of the angle between position and velocity. -/
theorem C91_L_accurate {A : Libm} (hA : A.Double) (hat : ∀ y x, |A.atan2 y x - atan2 y x| ≤ 4 * u * |atan2 y x|) {B : Blas} (hB : B.Ok) {x : RV ℝ} {mu : ℝ} (b : Bool)
    (hang : 1000000 * u * (norm x.r * norm x.v) < norm (cross x.r x.v)) (hz : 0 ≤ sgnI b * (cross x.r x.v).z) {h k : ℝ}
    (hh : h = -(cross x.r x.v).y / (norm (cross x.r x.v) + sgnI b * (cross x.r x.v).z)) (hk : k = (cross x.r x.v).x / (norm (cross x.r x.v) + sgnI b * (cross x.r x.v).z)) :
    ∃ L, (ic2eqD A B x mu b).L = some L ∧
      norm (x.r - norm x.r • (cos L • eqF (sgnI b) h k + sin L • eqG (sgnI b) h k)) ≤ 17000 * u * (norm x.r * norm x.v / norm (cross x.r x.v)) * norm x.r := by
  have hu := u_pos
  have hus := u_small
  have q0 : 0 ≤ norm x.r * norm x.v := mul_nonneg (norm_nonneg _) (norm_nonneg _)
  have hN : 0 < norm (cross x.r x.v) := lt_of_le_of_lt (by positivity) hang
  have hr : x.r ≠ 0 := by
    intro h0
    rw [h0] at hN
    have : norm (cross (0 : V3 ℝ) x.v) = 0 := by unfold V3.norm V3.dot V3.cross; simp
    linarith
  have hR := norm_pos hr
  have hI : sgnI b = 1 ∨ sgnI b = -1 := by cases b <;> simp [sgnI]
  obtain ⟨h', k', e1, e2, e3, e4⟩ := C91_hk_accurate hA hB (mu := mu) b (lt_of_le_of_lt (by nlinarith [mul_nonneg hu.le q0]) hang) hz
  rw [← hh] at e3
  rw [← hk] at e4
  have hkd := hkD_of e1 e2
  obtain ⟨X, Y, w, hww, hXY, hfg, hn⟩ := eqPlane_state b hN hz hh hk
  have hS : 1 ≤ norm x.r * norm x.v / norm (cross x.r x.v) := by rw [one_le_div hN]; exact norm_cross_le _ _
  have ht : u * (norm x.r * norm x.v / norm (cross x.r x.v)) ≤ 1 / 1000000 := by
    rw [← mul_div_assoc, div_le_iff₀ hN]; linarith
  obtain ⟨⟨a1, a2, a3⟩, b1, b2, b3⟩ := frame_err hA.arith hI h' k'
  obtain ⟨⟨c1, c2, c3⟩, d1, d2, d3⟩ := frame_lip hI (h := h) (k := k) (by linarith) e3 e4
  generalize norm x.r * norm x.v / norm (cross x.r x.v) = S at *
  have huS : u ≤ u * S := le_mul_of_one_le_right hu.le hS
  have tri : ∀ {a b c : ℝ}, |a - b| ≤ 9.4 * u → |b - c| ≤ 4.4 * (48 * u * S) → |a - c| ≤ 221 * (u * S) := fun {a b c} p q => by
    have := abs_add_le (a - b) (b - c)
    rw [sub_add_sub_cancel] at this
    linarith
  obtain ⟨lf, lg⟩ := frame_le hI h k
  have hXR : |X| ≤ norm x.r := abs_le_of_sq_le_sq (by nlinarith [mul_self_nonneg Y]) hR.le
  have hYR : |Y| ≤ norm x.r := abs_le_of_sq_le_sq (by nlinarith [mul_self_nonneg X]) hR.le
  obtain ⟨X', Y', hXY', dX, dY⟩ := eqXY_err hA.arith (fv' := eqFD A.toArith (sgnI b) h' k') (gv' := eqGD A.toArith (sgnI b) h' k') (t := 221 * (u * S))
    hww hfg hXY (by linarith) (by linarith) hXR hYR (abs_x_le x.r) lf lg ⟨tri a1 c1, tri a2 c2, tri a3 c3⟩ ⟨tri b1 d1, tri b2 d2, tri b3 d3⟩
  have nR := hB.norm x.r
  have hB' := nR.pos hR
  -- the normalised coordinates
  have hx := coordD_err hS ht hR nR hXR dX
  have hy := coordD_err hS ht hR nR hYR dY
  have hab : X / norm x.r * (X / norm x.r) + Y / norm x.r * (Y / norm x.r) = 1 := by
    rw [div_mul_div_comm, div_mul_div_comm, ← add_div, hn, div_self (mul_pos hR hR).ne']
  obtain ⟨f1, f2⟩ := dir_err hab (by linarith) hx hy
  refine ⟨A.atan2 (rn (Y' / B.norm x.r)) (rn (X' / B.norm x.r)), ?_, ?_⟩
  · unfold ic2eqD Arith.div?
    simp only [hkd, hXY', Option.bind_eq_bind, Option.bind_some, Option.pure_def, div?_ok hB'.ne', Option.map_some, hA.arith.rd]
  have hL := hat (rn (Y' / B.norm x.r)) (rn (X' / B.norm x.r))
  have hpi : |atan2 (rn (Y' / B.norm x.r)) (rn (X' / B.norm x.r))| ≤ 4 := by
    obtain ⟨p1, p2⟩ := atan2_mem (rn (Y' / B.norm x.r)) (rn (X' / B.norm x.r))
    have := pi_le_four
    exact abs_le.2 ⟨by linarith, by linarith⟩
  generalize A.atan2 (rn (Y' / B.norm x.r)) (rn (X' / B.norm x.r)) = L at *
  generalize atan2 (rn (Y' / B.norm x.r)) (rn (X' / B.norm x.r)) = L0 at *
  have hL2 : |L - L0| ≤ 16 * u := by
    have := mul_le_mul_of_nonneg_left hpi (show 0 ≤ 4 * u by positivity)
    linarith
  have g1 : |X / norm x.r - cos L| ≤ 11420 * (u * S) := by
    have := abs_sub_le (X / norm x.r) (cos L0) (cos L)
    have h1 := (abs_cos_sub_cos_le L0 L)
    rw [abs_sub_comm] at f1 hL2
    linarith
  have g2 : |Y / norm x.r - sin L| ≤ 11420 * (u * S) := by
    have := abs_sub_le (Y / norm x.r) (sin L0) (sin L)
    have h1 := (abs_sin_sub_sin_le L0 L)
    rw [abs_sub_comm] at f2 hL2
    linarith
  refine (frame_dir hI hR hXY g1 g2).trans (mul_le_mul_of_nonneg_right ?_ hR.le)
  have : 0 ≤ u * S := by positivity
  linarith

/-- The slanted ellipse: the position is at the ascending node, along the first axis. -/
example : ∃ L h k, (ic2eqD Libm.rounded (Blas.naive Libm.rounded.toArith) slanted 4 false).L = some L ∧
    norm (slanted.r - (1 : ℝ) • (cos L • eqF 1 h k + sin L • eqG 1 h k)) ≤ 17000 * u := by
  have hus := u_small
  have hu := u_pos
  have h1 : norm slanted.r = 1 := by unfold slanted V3.norm V3.dot; simp
  have h2 : norm slanted.v = √2 := by unfold slanted V3.norm V3.dot; norm_num
  have h3 : cross slanted.r slanted.v = ⟨0, -1, 1⟩ := by unfold slanted V3.cross; ext <;> simp
  have h4 : norm (cross slanted.r slanted.v) = √2 := by rw [h3]; unfold V3.norm V3.dot; norm_num
  have h6 : 0 < √2 := by positivity
  obtain ⟨L, e1, e2⟩ := C91_L_accurate Libm.rounded_double (fun y x => (rn_err' _).trans (by have := abs_nonneg (atan2 y x); nlinarith))
    (Blas.naive_ok Libm.rounded_double.arith) (x := slanted) (mu := 4) false (by rw [h1, h2, h4]; nlinarith) (by rw [h3]; simp [sgnI]) rfl rfl
  rw [h1, h2, h4, one_mul, div_self h6.ne', mul_one, mul_one] at e2
  exact ⟨L, _, _, e1, e2⟩

end Kep3
