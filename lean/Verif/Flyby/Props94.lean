import Verif.Flyby.VoutDouble
import Verif.Flyby.Props26
import Verif.Elements.Props92

/-!
# C94: the outgoing velocity of a fly-by in double precision
-/

namespace Kep3
open Real V3 Fl

/-! ## Sums and products -/

theorem sum4_err (a b c d : ℝ) : |rn (rn (rn (a + b) + c) + d) - (a + b + c + d)| ≤ 3.03 * u * (|a| + |b| + |c| + |d|) := by
  have hu := u_pos
  have hus := u_small
  have e1 := rn_err' (a + b)
  have e2 := rn_err' (rn (a + b) + c)
  have e3 := rn_err' (rn (rn (a + b) + c) + d)
  generalize rn (rn (rn (a + b) + c) + d) = z at *
  generalize rn (rn (a + b) + c) = y at *
  generalize rn (a + b) = x at *
  have a0 := abs_nonneg a
  have b0 := abs_nonneg b
  have c0 := abs_nonneg c
  have d0 := abs_nonneg d
  have hab := abs_add_le a b
  have hs : 0 ≤ |a| + |b| + |c| + |d| := by linarith
  obtain ⟨S, hS⟩ : ∃ S, S = |a| + |b| + |c| + |d| := ⟨_, rfl⟩
  rw [← hS] at hs ⊢
  have uS : u * S ≤ 0.001 * S := mul_le_mul_of_nonneg_right (by linarith) hs
  have u0 : 0 ≤ u * S := mul_nonneg hu.le hs
  have h1 : |x - (a + b)| ≤ u * S := e1.trans (mul_le_mul_of_nonneg_left (by linarith) hu.le)
  have h2 : |x + c| ≤ 1.001 * S := by
    calc |x + c| = |(x - (a + b)) + (a + b) + c| := by ring_nf
      _ ≤ _ := abs_add_three _ _ _
      _ ≤ _ := by linarith
  have h3 : |y - (x + c)| ≤ 1.001 * (u * S) := e2.trans ((mul_le_mul_of_nonneg_left h2 hu.le).trans (by linarith))
  have h4 : |y + d| ≤ 1.003 * S := by
    calc |y + d| = |(y - (x + c)) + (x - (a + b)) + ((a + b) + c + d)| := by ring_nf
      _ ≤ |y - (x + c)| + |x - (a + b)| + |(a + b) + c + d| := abs_add_three _ _ _
      _ ≤ _ := by have := abs_add_three (a + b) c d; linarith
  have h5 : |z - (y + d)| ≤ 1.003 * (u * S) := e3.trans ((mul_le_mul_of_nonneg_left h4 hu.le).trans (by linarith))
  calc |z - (a + b + c + d)| = |(z - (y + d)) + (y - (x + c)) + (x - (a + b))| := by ring_nf
    _ ≤ _ := abs_add_three _ _ _
    _ ≤ _ := by linarith

/-- `y` is `x` up to `a` times the bound `X` of `x`. -/
def Upto (a X x y : ℝ) : Prop := |y - x| ≤ a * X ∧ |x| ≤ X

namespace Upto
variable {a b X Y x y z w : ℝ}

theorem le (h : Upto a X x y) : |y| ≤ (1 + a) * X := by
  have h1 := abs_add_le (y - x) x
  rw [sub_add_cancel] at h1
  have := h.1; have := h.2; linarith

theorem mono (h : Upto a X x y) (hb : a ≤ b) : Upto b X x y := by
  refine ⟨h.1.trans (mul_le_mul_of_nonneg_right hb ((abs_nonneg _).trans h.2)), h.2⟩

theorem mul (h : Upto a X x y) (g : Upto b Y z w) (ha : a ≤ 1 / 100) (h0 : 0 ≤ a) (hb : b ≤ 1 / 100) (g0 : 0 ≤ b) :
    Upto (a + 1.01 * b + 1.03 * u) (X * Y) (x * z) (rn (y * w)) := by
  have X0 := (abs_nonneg _).trans h.2
  have Y0 := (abs_nonneg _).trans g.2
  have hy := h.le
  have hw := g.le
  have XY := mul_nonneg X0 Y0
  have e := rn_err' (y * w)
  have k1 : |y * w| ≤ 1.03 * (X * Y) := by
    rw [abs_mul]
    calc |y| * |w| ≤ (1 + a) * X * ((1 + b) * Y) := mul_le_mul hy hw (abs_nonneg _) (by positivity)
      _ ≤ 1.01 * X * (1.01 * Y) := by gcongr <;> linarith
      _ ≤ _ := by linarith
  have k2 : |y * (w - z)| ≤ 1.01 * b * (X * Y) := by
    rw [abs_mul]
    calc |y| * |w - z| ≤ (1 + a) * X * (b * Y) := mul_le_mul hy g.1 (abs_nonneg _) (by positivity)
      _ ≤ 1.01 * X * (b * Y) := by gcongr; linarith
      _ = _ := by ring
  have k3 : |(y - x) * z| ≤ a * (X * Y) := by
    rw [abs_mul]
    calc |y - x| * |z| ≤ a * X * Y := mul_le_mul h.1 g.2 (abs_nonneg _) (by positivity)
      _ = _ := by ring
  have k4 := mul_le_mul_of_nonneg_left k1 u_pos.le
  refine ⟨?_, ?_⟩
  · calc |rn (y * w) - x * z| = |(rn (y * w) - y * w) + y * (w - z) + (y - x) * z| := by ring_nf
      _ ≤ _ := abs_add_three _ _ _
      _ ≤ _ := by linarith
  · rw [abs_mul]; exact mul_le_mul h.2 g.2 (abs_nonneg _) X0

end Upto

/-- The error of one component of the outgoing velocity. -/
theorem outD_err {A : Arith} (hA : A.Double) {vn cd sd cb sb p i j k V c s c' s' i₀ j₀ k₀ κ : ℝ} (hV : 0 ≤ V) (hn : |vn - V| ≤ 6.1 * u * V)
    (h1 : |cd - c| ≤ 2 * u) (h2 : |sd - s| ≤ 4 * u) (h3 : |cb - c'| ≤ 2 * u) (h4 : |sb - s'| ≤ 4 * u) (b1 : |c| ≤ 1) (b2 : |s| ≤ 1) (b3 : |c'| ≤ 1) (b4 : |s'| ≤ 1)
    (hi : |i - i₀| ≤ 8.4 * u) (hj : |j - j₀| ≤ 38 * κ) (hk : |k - k₀| ≤ 55 * κ) (bi : |i₀| ≤ 1) (bj : |j₀| ≤ 1) (bk : |k₀| ≤ 1) (hκ : u ≤ κ) (hκ1 : κ ≤ 1 / 10 ^ 4) :
    |outD A vn cd sd cb sb p i j k - (p + V * c * i₀ + V * c' * s * j₀ + V * s' * s * k₀)| ≤ 160 * κ * V + 3.03 * u * |p| := by
  have hu := u_pos
  have hus := u_small
  have Hn : Upto (6.1 * u) V V vn := ⟨hn, (abs_of_nonneg hV).le⟩
  have H1 : Upto (2 * u) 1 c cd := ⟨by linarith, b1⟩
  have H2 : Upto (4 * u) 1 s sd := ⟨by linarith, b2⟩
  have H3 : Upto (2 * u) 1 c' cb := ⟨by linarith, b3⟩
  have H4 : Upto (4 * u) 1 s' sb := ⟨by linarith, b4⟩
  have Hi : Upto (8.4 * u) 1 i₀ i := ⟨by linarith, bi⟩
  have Hj : Upto (38 * κ) 1 j₀ j := ⟨by linarith, bj⟩
  have Hk : Upto (55 * κ) 1 k₀ k := ⟨by linarith, bk⟩
  have P1 := ((Hn.mul H1 (by linarith) (by linarith) (by linarith) (by linarith)).mono (by linarith : _ ≤ 9.2 * u)).mul Hi (by linarith) (by linarith) (by linarith)
    (by linarith) |>.mono (by linarith : _ ≤ 19 * κ)
  have P2 := (((Hn.mul H3 (by linarith) (by linarith) (by linarith) (by linarith)).mono (by linarith : _ ≤ 9.2 * u)).mul H2 (by linarith) (by linarith) (by linarith)
    (by linarith) |>.mono (by linarith : _ ≤ 14.3 * u)).mul Hj (by linarith) (by linarith) (by linarith) (by linarith) |>.mono (by linarith : _ ≤ 54 * κ)
  have P3 := (((Hn.mul H4 (by linarith) (by linarith) (by linarith) (by linarith)).mono (by linarith : _ ≤ 11.2 * u)).mul H2 (by linarith) (by linarith) (by linarith)
    (by linarith) |>.mono (by linarith : _ ≤ 16.3 * u)).mul Hk (by linarith) (by linarith) (by linarith) (by linarith) |>.mono (by linarith : _ ≤ 73 * κ)
  unfold outD
  rw [hA.rd]
  simp only [mul_one] at P1 P2 P3
  have S := sum4_err p (rn (rn (vn * cd) * i)) (rn (rn (rn (vn * cb) * sd) * j)) (rn (rn (rn (vn * sb) * sd) * k))
  generalize rn (rn (vn * cd) * i) = q1 at *
  generalize rn (rn (rn (vn * cb) * sd) * j) = q2 at *
  generalize rn (rn (rn (vn * sb) * sd) * k) = q3 at *
  generalize rn (rn (rn (p + q1) + q2) + q3) = z at *
  have L1 : |q1| ≤ 1.01 * V := P1.le.trans (mul_le_mul_of_nonneg_right (by linarith) hV)
  have L2 : |q2| ≤ 1.01 * V := P2.le.trans (mul_le_mul_of_nonneg_right (by linarith) hV)
  have L3 : |q3| ≤ 1.01 * V := P3.le.trans (mul_le_mul_of_nonneg_right (by linarith) hV)
  have L : 3.03 * u * (|p| + |q1| + |q2| + |q3|) ≤ 3.03 * u * |p| + 9.3 * (u * V) := by
    have : 3.03 * u * (|p| + |q1| + |q2| + |q3|) ≤ 3.03 * u * (|p| + 3.03 * V) := mul_le_mul_of_nonneg_left (by linarith) (by linarith)
    have := mul_nonneg hu.le hV
    linarith
  have uV := mul_nonneg hu.le hV
  have uκ : u * V ≤ κ * V := mul_le_mul_of_nonneg_right hκ hV
  calc |z - (p + V * c * i₀ + V * c' * s * j₀ + V * s' * s * k₀)|
      = |(z - (p + q1 + q2 + q3)) + (q1 - V * c * i₀) + ((q2 - V * c' * s * j₀) + (q3 - V * s' * s * k₀))| := by ring_nf
    _ ≤ |z - (p + q1 + q2 + q3)| + |q1 - V * c * i₀| + |(q2 - V * c' * s * j₀) + (q3 - V * s' * s * k₀)| := abs_add_three _ _ _
    _ ≤ _ := by
      have := abs_add_le (q2 - V * c' * s * j₀) (q3 - V * s' * s * k₀)
      have := P1.1; have := P2.1; have := P3.1
      linarith

/-! ## The frame of the fly-by -/

theorem norm_within {a b : V3 ℝ} {ε : ℝ} (h0 : 0 ≤ ε) (hx : |b.x - a.x| ≤ ε * |a.x|) (hy : |b.y - a.y| ≤ ε * |a.y|) (hz : |b.z - a.z| ≤ ε * |a.z|) :
    norm (b - a) ≤ ε * norm a := by
  have sq : ∀ s t : ℝ, |s - t| ≤ ε * |t| → (s - t) * (s - t) ≤ ε ^ 2 * (t * t) := fun s t h => by
    have h1 := mul_le_mul h h (abs_nonneg _) (by positivity)
    rw [abs_mul_abs_self] at h1
    calc _ ≤ _ := h1
      _ = ε ^ 2 * (|t| * |t|) := by ring
      _ = _ := by rw [abs_mul_abs_self]
  refine abs_le_of_sq_le_sq' ?_ (mul_nonneg h0 (norm_nonneg a)) |>.2
  rw [mul_pow, norm_sq, norm_sq]
  have := sq _ _ hx; have := sq _ _ hy; have := sq _ _ hz
  unfold V3.dot
  simp only [sub_x, sub_y, sub_z]
  linarith

theorem norm_add_le' (a b : V3 ℝ) : norm (a + b) ≤ norm a + norm b := by
  have h := norm_sub_le' a (-b)
  have e1 : a - -b = a + b := by ext <;> simp
  have e2 : norm (-b) = norm b := by unfold V3.norm V3.dot; simp
  rwa [e1, e2] at h

theorem norm_rev (a b : V3 ℝ) : |norm a - norm b| ≤ norm (a - b) := by
  have h1 := norm_add_le' (a - b) b
  have h2 := norm_sub_le' a (a - b)
  rw [show a - b + b = a by ext <;> simp] at h1
  rw [show a - (a - b) = b by ext <;> simp] at h2
  rw [abs_le]; constructor <;> linarith

section
variable {A : Arith} (hA : A.Double)
include hA

theorem norm_near (v : V3 ℝ) : Near 4.1 (norm v) (A.rd √(A.dot v v)) := by
  rw [hA.rd]; exact ((near_dot hA v).sqrt.rn (by norm_num)).mono (by norm_num)

/-- The direction of a vector known up to an error. -/
theorem normalize_err {c c' : V3 ℝ} {η : ℝ} (hc : c ≠ 0) (h : norm (c' - c) ≤ η * norm c) (hη : η ≤ 1 / 100) :
    ∃ j, normalizeD A c' = some j ∧ norm (j - (1 / norm c) • c) ≤ 2 * η + 5.4 * u := by
  have hu := u_pos
  have hus := u_small
  have hC := norm_pos hc
  have hr := (norm_rev c' c).trans h
  have hC' : 0 < norm c' := by
    have := (abs_le.1 hr).1
    nlinarith
  have hn := norm_near hA c'
  have hp := hn.pos hC'
  unfold normalizeD Arith.vdiv?
  rw [if_neg hp.ne']
  refine ⟨_, rfl, ?_⟩
  rw [hA.rd] at *
  generalize rn √(A.dot c' c') = n at *
  have W : Within (4.1 * u) (norm c') n := by unfold Within; rw [abs_of_pos hC']; exact hn.abs_le
  have comp : ∀ t, |rn (t / n) - t * (norm c')⁻¹| ≤ 5.4 * u * |t * (norm c')⁻¹| := by
    intro t
    have h0 : Within 0 t t := by unfold Within; simp
    have := ((h0.mul (W.inv (by linarith) (by linarith) hC') (by norm_num)).rn (by linarith)).mono (by linarith : _ ≤ 5.4 * u)
    rwa [← div_eq_mul_inv t n] at this
  have s1 := norm_within (a := (norm c')⁻¹ • c') (b := ⟨rn (c'.x / n), rn (c'.y / n), rn (c'.z / n)⟩) (by linarith : 0 ≤ 5.4 * u)
    (by have := comp c'.x; rw [mul_comm c'.x] at this; exact this) (by have := comp c'.y; rw [mul_comm c'.y] at this; exact this)
    (by have := comp c'.z; rw [mul_comm c'.z] at this; exact this)
  rw [norm_smul_pos' (inv_pos.2 hC'), inv_mul_cancel₀ hC'.ne'] at s1
  have s2 : norm ((norm c')⁻¹ • c' - (1 / norm c) • c) ≤ 2 * η := by
    have e : (norm c')⁻¹ • c' - (1 / norm c) • c = (((norm c - norm c') / norm c) • (norm c')⁻¹ • c') + (1 / norm c) • (c' - c) := by
      ext <;> simp <;> field_simp <;> ring
    rw [e]
    refine (norm_add_le' _ _).trans ?_
    rw [norm_smul_pos' (by positivity : 0 < 1 / norm c)]
    have e2 : norm (((norm c - norm c') / norm c) • (norm c')⁻¹ • c') = |norm c - norm c'| / norm c := by
      have : norm (((norm c - norm c') / norm c) • (norm c')⁻¹ • c') = |(norm c - norm c') / norm c| := by
        have h1 : norm ((norm c')⁻¹ • c') = 1 := by rw [norm_smul_pos' (inv_pos.2 hC'), inv_mul_cancel₀ hC'.ne']
        generalize (norm c')⁻¹ • c' = w at *
        generalize (norm c - norm c') / norm c = t at *
        have h2 : dot w w = 1 := by rw [← norm_sq, h1]; norm_num
        unfold V3.norm
        rw [dot_smul, smul_dot, h2, mul_one, sqrt_mul_self_eq_abs]
      rw [this, abs_div, abs_of_pos hC]
    rw [e2, abs_sub_comm]
    have k1 : |norm c' - norm c| / norm c ≤ η := by rw [div_le_iff₀ hC]; exact hr
    have k2 : 1 / norm c * norm (c' - c) ≤ η := by rw [one_div, inv_mul_le_iff₀ hC, mul_comm]; exact h
    linarith
  calc _ = norm ((⟨rn (c'.x / n), rn (c'.y / n), rn (c'.z / n)⟩ - (norm c')⁻¹ • c') + ((norm c')⁻¹ • c' - (1 / norm c) • c)) := by
        congr 1; ext <;> simp
    _ ≤ _ := norm_add_le' _ _
    _ ≤ _ := by linarith

/-- The relative velocity and the first axis. -/
theorem first_axis {vi vp : V3 ℝ} (hne : vi - vp ≠ 0) : Near 5.05 (dot (vi - vp) (vi - vp)) (A.dot (A.sub vi vp) (A.sub vi vp)) ∧
    Near 6.1 (norm (vi - vp)) (A.rd √(A.dot (A.sub vi vp) (A.sub vi vp))) ∧
    ∃ i, A.vdiv? (A.sub vi vp) (A.rd √(A.dot (A.sub vi vp) (A.sub vi vp))) = some i ∧ norm (i - (1 / norm (vi - vp)) • (vi - vp)) ≤ 8.4 * u := by
  have hu := u_pos
  have hus := u_small
  have hV := norm_pos hne
  have sq : ∀ a b : ℝ, Near 3.02 ((a - b) * (a - b)) (rn (rn (a - b) * rn (a - b))) := by
    intro a b
    have h : Near 1 |a - b| |rn (a - b)| :=
      ⟨abs_nonneg _, by norm_num, by norm_num, by rw [one_mul]; exact (abs_abs_sub_abs_le _ _).trans (rn_err' _)⟩
    have := (h.mul h (by norm_num)).rn (by norm_num)
    rw [abs_mul_abs_self, abs_mul_abs_self] at this
    exact this.mono (by norm_num)
  have hd : Near 5.05 (dot (vi - vp) (vi - vp)) (A.dot (A.sub vi vp) (A.sub vi vp)) := by
    unfold Arith.dot Arith.sub V3.dot
    rw [hA.rd]
    simp only [sub_x, sub_y, sub_z]
    have h1 := ((sq vi.x vp.x).add (sq vi.y vp.y)).rn (by norm_num)
    exact ((h1.add ((sq vi.z vp.z).mono (by norm_num))).rn (by norm_num)).mono (by norm_num)
  have hn : Near 6.1 (norm (vi - vp)) (A.rd √(A.dot (A.sub vi vp) (A.sub vi vp))) := by
    have := (hd.sqrt.rn (by norm_num)).mono (by norm_num : (5.05 : ℝ) + 1.01 ≤ 6.1)
    rw [hA.rd]; exact this
  refine ⟨hd, hn, ?_⟩
  have hp := hn.pos hV
  unfold Arith.vdiv?
  rw [if_neg hp.ne']
  refine ⟨_, rfl, ?_⟩
  rw [hA.rd] at *
  generalize rn √(A.dot (A.sub vi vp) (A.sub vi vp)) = n at *
  have W : Within (6.1 * u) (norm (vi - vp)) n := by unfold Within; rw [abs_of_pos hV]; exact hn.abs_le
  have comp : ∀ a b : ℝ, |rn (rn (a - b) / n) - 1 / norm (vi - vp) * (a - b)| ≤ 8.4 * u * |1 / norm (vi - vp) * (a - b)| := by
    intro a b
    have h0 : Within (1 * u) (a - b) (rn (a - b)) := by unfold Within; rw [one_mul]; exact rn_err' _
    have := ((h0.mul (W.inv (by linarith) (by linarith) hV) (by linarith)).rn (by linarith)).mono (by linarith : _ ≤ 8.4 * u)
    rwa [← div_eq_mul_inv _ n, mul_comm (a - b), ← one_div] at this
  have s1 := norm_within (a := (1 / norm (vi - vp)) • (vi - vp)) (b := ⟨rn ((A.sub vi vp).x / n), rn ((A.sub vi vp).y / n), rn ((A.sub vi vp).z / n)⟩)
    (by linarith : 0 ≤ 8.4 * u) (by unfold Arith.sub; rw [hA.rd]; exact comp _ _) (by unfold Arith.sub; rw [hA.rd]; exact comp _ _)
    (by unfold Arith.sub; rw [hA.rd]; exact comp _ _)
  rw [norm_smul_pos' (by positivity), one_div, inv_mul_cancel₀ hV.ne', mul_one] at s1
  rw [one_div]; exact s1

theorem crossD_norm {a b a₀ b₀ : V3 ℝ} {d k : ℝ} (ha : norm (a - a₀) ≤ d) (hb : norm (b - b₀) ≤ k) (ha0 : norm a₀ = 1) (hd : d ≤ 1 / 100) :
    norm (A.cross a b - cross a₀ b₀) ≤ 7.5 * u * norm b + d * norm b + k := by
  have hu := u_pos
  have na : norm a ≤ 1.01 := by
    have := norm_add_le' (a - a₀) a₀
    rw [show a - a₀ + a₀ = a by ext <;> simp] at this
    linarith
  have b0 := norm_nonneg b
  have ub := mul_nonneg hu.le b0
  obtain ⟨h1, h2, h3⟩ := crossD_err hA a b b (k := 0) (q := norm b) le_rfl (by norm_num) le_rfl (by simp) (by simp) (by simp)
  have hm : (0 + 2.1) * u * (2 * (norm a * norm b)) ≤ 4.3 * (u * norm b) := by
    have : norm a * norm b ≤ 1.01 * norm b := mul_le_mul_of_nonneg_right na b0
    have := mul_le_mul_of_nonneg_left this hu.le
    linarith
  have s1 : norm (A.cross a b - cross a b) ≤ 1.74 * (4.3 * (u * norm b)) :=
    norm_le_of_comp (by linarith) (h1.trans hm) (h2.trans hm) (h3.trans hm)
  have s2 := norm_cross_le (a - a₀) b
  have s3 := norm_cross_le a₀ (b - b₀)
  have e : A.cross a b - cross a₀ b₀ = (A.cross a b - cross a b) + (cross (a - a₀) b + cross a₀ (b - b₀)) := by ext <;> simp <;> ring
  rw [e]
  refine (norm_add_le' _ _).trans ?_
  have := norm_add_le' (cross (a - a₀) b) (cross a₀ (b - b₀))
  have := mul_le_mul_of_nonneg_right ha b0
  rw [ha0] at s3
  linarith

/-- The axes. -/
theorem axes_err {vi vp : V3 ℝ} {κ : ℝ} (hκ : κ = u * (norm (vi - vp) * norm vp / norm (cross vi vp))) (hκ1 : κ ≤ 1 / 10 ^ 4) (hc : cross vi vp ≠ 0) {i₀ j₀ : V3 ℝ}
    (hi₀ : i₀ = (1 / norm (vi - vp)) • (vi - vp)) (hj₀ : j₀ = (1 / norm (cross i₀ vp)) • cross i₀ vp) (hne : vi - vp ≠ 0) : u ≤ κ ∧
    ∃ i j, A.vdiv? (A.sub vi vp) (A.rd √(A.dot (A.sub vi vp) (A.sub vi vp))) = some i ∧ normalizeD A (A.cross i vp) = some j ∧
      norm (i - i₀) ≤ 8.4 * u ∧ norm (j - j₀) ≤ 38 * κ ∧ norm (A.cross i j - cross i₀ j₀) ≤ 55 * κ := by
  have hu := u_pos
  have hus := u_small
  have hV := norm_pos hne
  have hs := norm_pos hc
  obtain ⟨-, -, i, ri, ei⟩ := first_axis hA hne
  rw [← hi₀] at ei
  have ni : norm i₀ = 1 := by rw [hi₀, norm_smul_pos' (by positivity), one_div, inv_mul_cancel₀ hV.ne']
  have eC : norm (vi - vp) * norm (cross i₀ vp) = norm (cross vi vp) := by
    have h1 : cross i₀ vp = (1 / norm (vi - vp)) • cross vi vp := by rw [hi₀]; ext <;> simp <;> ring
    rw [h1, norm_smul_pos' (by positivity)]; field_simp
  have hC : 0 < norm (cross i₀ vp) := by
    rcases (norm_nonneg (cross i₀ vp)).eq_or_lt with h | h
    · rw [← h, mul_zero] at eC; linarith
    · exact h
  have hκC : u * norm vp = κ * norm (cross i₀ vp) := by
    rw [hκ, ← eC]; field_simp
  have hCW := norm_cross_le i₀ vp
  rw [ni, one_mul] at hCW
  have huκ : u ≤ κ := by
    by_contra h
    push Not at h
    have h1 : κ * norm (cross i₀ vp) < u * norm (cross i₀ vp) := mul_lt_mul_of_pos_right h hC
    have h2 := mul_le_mul_of_nonneg_left hCW hu.le
    linarith
  have hcne : cross i₀ vp ≠ 0 := by intro h; rw [h] at hC; simp [V3.norm, V3.dot] at hC
  have e1 := crossD_norm hA (b := vp) (b₀ := vp) (k := 0) ei (by rw [show vp - vp = 0 by ext <;> simp]; simp [V3.norm, V3.dot]) ni (by linarith)
  have e2 : norm (A.cross i vp - cross i₀ vp) ≤ 15.9 * κ * norm (cross i₀ vp) := by
    calc _ ≤ _ := e1
      _ = 15.9 * (u * norm vp) := by ring
      _ = _ := by rw [hκC]; ring
  obtain ⟨j, rj, ej⟩ := normalize_err hA hcne e2 (by linarith)
  rw [← hj₀] at ej
  have ej' : norm (j - j₀) ≤ 38 * κ := by linarith
  have nj₀ : norm j₀ = 1 := by rw [hj₀, norm_smul_pos' (by positivity), one_div, inv_mul_cancel₀ hC.ne']
  have nj : norm j ≤ 1.01 := by
    have := norm_add_le' (j - j₀) j₀
    rw [show j - j₀ + j₀ = j by ext <;> simp] at this
    linarith
  refine ⟨huκ, i, j, ri, rj, ei, ej', ?_⟩
  have e3 := crossD_norm hA ei ej' ni (by linarith)
  have : u * norm j ≤ u * 1.01 := mul_le_mul_of_nonneg_left nj hu.le
  linarith

end

/-! ## The turn angle -/

theorem arcsin_change {x y : ℝ} (hx : 0 ≤ x ∧ x ≤ 1) (hy : 0 ≤ y ∧ y ≤ 1) : |arcsin x - arcsin y| * √(1 - y) ≤ π * |x - y| := by
  have a0 := arcsin_nonneg.2 hx.1
  have b0 := arcsin_nonneg.2 hy.1
  have a1 := arcsin_le_pi_div_two x
  have b1 := arcsin_le_pi_div_two y
  have sa := sin_arcsin (by linarith : -1 ≤ x) hx.2
  have sb := sin_arcsin (by linarith : -1 ≤ y) hy.2
  have cb := cos_arcsin y
  have hpi := pi_pos
  have hle : √(1 - y) ≤ cos (arcsin y) := by rw [cb]; exact sqrt_le_sqrt (by nlinarith)
  have h0 := sqrt_nonneg (1 - y)
  generalize √(1 - y) = r at *
  generalize arcsin x = a at *
  generalize arcsin y = b at *
  have e1 : x - y = 2 * sin ((a - b) / 2) * cos ((a + b) / 2) := by rw [← sa, ← sb, sin_sub_sin]
  have e2 : cos a + cos b = 2 * cos ((a + b) / 2) * cos ((a - b) / 2) := cos_add_cos a b
  have c0 : 0 ≤ cos ((a + b) / 2) := cos_nonneg_of_mem_Icc ⟨by linarith, by linarith⟩
  have ca : 0 ≤ cos a := cos_nonneg_of_mem_Icc ⟨by linarith, by linarith⟩
  have h1 : r ≤ 2 * cos ((a + b) / 2) := by
    have := mul_le_mul_of_nonneg_left (cos_le_one ((a - b) / 2)) c0
    linarith
  have h2 : |a - b| ≤ π * |sin ((a - b) / 2)| := by
    have h := mul_abs_le_abs_sin (x := (a - b) / 2) (by rw [abs_div, abs_two, div_le_div_iff_of_pos_right two_pos, abs_le]; constructor <;> linarith)
    rw [abs_div, abs_two, div_mul_div_comm, div_le_iff₀ (by positivity)] at h
    nlinarith
  rw [e1, abs_mul, abs_mul, abs_two, abs_of_nonneg c0]
  calc |a - b| * r ≤ π * |sin ((a - b) / 2)| * (2 * cos ((a + b) / 2)) := mul_le_mul h2 h1 h0 (by positivity)
    _ = _ := by ring

theorem turnD_err {A : Arith} (hA : A.Double) {rp mu v2 v2' : ℝ} (hmu : 0 < mu) (hrp : 0 < rp) (hv : 0 < v2) (hn : Near 5.05 v2 v2') :
    ∃ δ, turnD A rp mu v2' = some δ ∧ |δ - 2 * arcsin (1 / (1 + rp * v2 / mu))| ≤ 80 * u * √(1 + mu / (rp * v2)) := by
  have hu := u_pos
  have hus := u_small
  have hx : Near 7.08 (rp / mu * v2) (rn (rn (rp / mu) * v2')) :=
    ((((Near.exact (by positivity : 0 ≤ rp / mu)).rn (by norm_num)).mul hn (by norm_num)).rn (by norm_num)).mono (by norm_num)
  have he := ((Near.exact (zero_le_one' ℝ)).mono (by norm_num : (0 : ℝ) ≤ 7.08)).add hx |>.rn (by norm_num)
  have he0 : 0 < 1 + rp / mu * v2 := by positivity
  have he1 : 1 ≤ rn (1 + rn (rn (rp / mu) * v2')) := by
    conv_lhs => rw [← rn_one]
    exact rn_mono (by linarith [hx.nonneg])
  have hie := (he.inv he0 (by norm_num)).rn (by norm_num)
  have run : ∀ x, -1 ≤ x → x ≤ 1 → rn (1 / rn (1 + rn (rn (rp / mu) * v2'))) = x → turnD A rp mu v2' = some (rn (2 * A.asin x)) := by
    intro x h1 h2 hx
    unfold turnD Arith.div? Arith.asin?
    rw [hA.rd]
    simp only [div?_ok hmu.ne', Option.map_some, Option.bind_eq_bind, Option.bind_some]
    rw [div?_ok (by linarith)]
    simp only [Option.map_some, Option.bind_some]
    rw [hx, if_pos ⟨h1, h2⟩]
    rfl
  generalize rn (1 + rn (rn (rp / mu) * v2')) = e' at *
  have i0 : 0 ≤ rn (1 / e') := hie.nonneg
  have i1 : rn (1 / e') ≤ 1 := by
    rw [← rn_one]
    apply rn_mono
    rw [rn_one, div_le_one (by linarith)]; exact he1
  have hlib := hA.asin _ (by linarith) i1
  refine ⟨_, run _ (by linarith) i1 rfl, ?_⟩
  have hsp : 0 < rp * v2 / mu := by positivity
  have y0 : 0 ≤ 1 / (1 + rp * v2 / mu) := by positivity
  have y1 : 1 / (1 + rp * v2 / mu) ≤ 1 := by rw [div_le_one (by positivity)]; linarith
  have hd : |rn (1 / e') - 1 / (1 + rp * v2 / mu)| ≤ 9.2 * u := by
    have h := hie.abs_le
    rw [show rp / mu * v2 = rp * v2 / mu by ring] at h
    have : (7.08 + 1.01 + 0.01 + 1.01) * u * (1 / (1 + rp * v2 / mu)) ≤ 9.2 * u := by nlinarith
    linarith
  have hch := arcsin_change ⟨i0, i1⟩ ⟨y0, y1⟩
  have hR : √(1 + mu / (rp * v2)) * √(1 - 1 / (1 + rp * v2 / mu)) = 1 := by
    rw [← sqrt_mul (by positivity), sqrt_eq_one]
    field_simp
    ring
  have hR1 : 1 ≤ √(1 + mu / (rp * v2)) := by
    rw [one_le_sqrt]
    have : 0 < mu / (rp * v2) := by positivity
    linarith
  have s2 : |arcsin (1 / (1 + rp * v2 / mu))| ≤ 1.6 := by
    have := arcsin_le_pi_div_two (1 / (1 + rp * v2 / mu))
    have := neg_pi_div_two_le_arcsin (1 / (1 + rp * v2 / mu))
    have := pi_lt_d4
    rw [abs_le]; constructor <;> linarith
  generalize rn (1 / e') = x at *
  generalize arcsin (1 / (1 + rp * v2 / mu)) = s at *
  generalize √(1 - 1 / (1 + rp * v2 / mu)) = r at *
  generalize √(1 + mu / (rp * v2)) = R at *
  have s1 : |arcsin x - s| ≤ 29 * u * R := by
    have h1 : |arcsin x - s| = |arcsin x - s| * r * R := by rw [mul_assoc, mul_comm r, hR, mul_one]
    have h2 : π * |x - 1 / (1 + rp * v2 / mu)| ≤ 29 * u := by
      calc _ ≤ 3.1416 * (9.2 * u) := mul_le_mul pi_lt_d4.le hd (abs_nonneg _) (by norm_num)
        _ ≤ _ := by linarith
    rw [h1]
    exact mul_le_mul_of_nonneg_right (hch.trans h2) (by linarith)
  have hl : (1 : ℝ) / 2 ^ 50 = 8 * u := by unfold u; norm_num
  rw [hl] at hlib
  have uR : u ≤ u * R := le_mul_of_one_le_right hu.le hR1
  generalize A.asin x = s' at *
  have s3 : |s' - s| ≤ 37 * (u * R) := by
    calc |s' - s| = |(s' - arcsin x) + (arcsin x - s)| := by ring_nf
      _ ≤ _ := abs_add_le _ _
      _ ≤ _ := by linarith
  have hr := rn_err' (2 * s')
  rw [abs_mul, abs_two] at hr
  have s4 : |s'| ≤ 37 * (u * R) + 1.6 := by
    calc |s'| = |(s' - s) + s| := by ring_nf
      _ ≤ _ := abs_add_le _ _
      _ ≤ _ := by linarith
  have s5 : u * (2 * |s'|) ≤ 3.3 * (u * R) := by
    have h1 : u * (2 * |s'|) ≤ u * (74 * (u * R) + 3.2) := mul_le_mul_of_nonneg_left (by linarith) hu.le
    have h2 : u * (74 * (u * R)) ≤ 0.01 * (u * R) := by
      rw [← mul_assoc]; exact mul_le_mul_of_nonneg_right (by linarith) (by positivity)
    linarith
  calc |rn (2 * s') - 2 * s| = |(rn (2 * s') - 2 * s') + 2 * (s' - s)| := by ring_nf
    _ ≤ |rn (2 * s') - 2 * s'| + |2 * (s' - s)| := abs_add_le _ _
    _ ≤ _ := by rw [abs_mul, abs_two]; linarith

/-! ## The outgoing velocity -/

/-- Rotations by two angles. -/
theorem turn_change {i j : V3 ℝ} (hi : dot i i = 1) (hj : dot j j = 1) (hij : dot i j = 0) {V : ℝ} (hV : 0 < V) (b δ δ' : ℝ) :
    norm (V • (cos δ' • i + (cos b * sin δ') • j + (sin b * sin δ') • cross i j) - V • (cos δ • i + (cos b * sin δ) • j + (sin b * sin δ) • cross i j)) ≤ V * |δ' - δ| := by
  have e : V • (cos δ' • i + (cos b * sin δ') • j + (sin b * sin δ') • cross i j) - V • (cos δ • i + (cos b * sin δ) • j + (sin b * sin δ) • cross i j)
      = V • ((cos δ' - cos δ) • i + (cos b * sin δ' - cos b * sin δ) • j + (sin b * sin δ' - sin b * sin δ) • cross i j) := by ext <;> simp <;> ring
  rw [e, norm_smul_pos' hV]
  refine mul_le_mul_of_nonneg_left ?_ hV.le
  unfold V3.norm
  rw [frame_dot hi hj hij, ← sqrt_sq_eq_abs]
  apply sqrt_le_sqrt
  have h1 := sin_sq_add_cos_sq b
  have h2 := sin_sq_add_cos_sq δ
  have h3 := sin_sq_add_cos_sq δ'
  have h4 := one_sub_sq_div_two_le_cos (x := δ' - δ)
  rw [cos_sub] at h4
  have : (cos δ' - cos δ) * (cos δ' - cos δ) + (cos b * sin δ' - cos b * sin δ) * (cos b * sin δ' - cos b * sin δ)
      + (sin b * sin δ' - sin b * sin δ) * (sin b * sin δ' - sin b * sin δ) = 2 - 2 * (cos δ' * cos δ + sin δ' * sin δ) := by
    linear_combination (sin δ' - sin δ) ^ 2 * h1 + h2 + h3
  rw [this]; linarith

/-- The computed velocity is the one for a nearby turn angle. -/
theorem fbVoutD_run {A : Libm} (hA : A.Double) {vi vp : V3 ℝ} {rp mu : ℝ} (hmu : 0 < mu) (hrp : 0 < rp) (hc : cross vi vp ≠ 0)
    (hκ : 10 ^ 4 * u * (norm (vi - vp) * norm vp) ≤ norm (cross vi vp)) (beta : ℝ) :
    ∃ i j : V3 ℝ, dot i i = 1 ∧ dot j j = 1 ∧ dot i j = 0 ∧ 0 < norm (vi - vp) ∧
      fbVout vi vp rp beta mu = some (vp + norm (vi - vp) • (cos (2 * arcsin (1 / (1 + rp * norm (vi - vp) ^ 2 / mu))) • i
        + (cos beta * sin (2 * arcsin (1 / (1 + rp * norm (vi - vp) ^ 2 / mu)))) • j + (sin beta * sin (2 * arcsin (1 / (1 + rp * norm (vi - vp) ^ 2 / mu)))) • cross i j)) ∧
      ∃ vo δ, fbVoutD A vi vp rp beta mu = some vo ∧
        |δ - 2 * arcsin (1 / (1 + rp * norm (vi - vp) ^ 2 / mu))| ≤ 80 * u * √(1 + mu / (rp * norm (vi - vp) ^ 2)) ∧
        norm (vo - (vp + norm (vi - vp) • (cos δ • i + (cos beta * sin δ) • j + (sin beta * sin δ) • cross i j)))
          ≤ 280 * (u * (norm (vi - vp) * norm vp / norm (cross vi vp))) * norm (vi - vp) + 6 * u * norm vp := by
  have hu := u_pos
  obtain ⟨i, j, k, hi, hj, hij, hk, ei, ej, hv, hn, hrun⟩ := fbVout_frame hmu hrp hc
  subst hk
  have hne : vi - vp ≠ 0 := by intro h; rw [h] at hn; simp [V3.norm, V3.dot] at hn
  have hs := norm_pos hc
  refine ⟨i, j, hi, hj, hij, hn, ?_, ?_⟩
  · rw [hrun beta, norm_sq]; rfl
  obtain ⟨κ, hκd⟩ : ∃ κ, κ = u * (norm (vi - vp) * norm vp / norm (cross vi vp)) := ⟨_, rfl⟩
  have hκ1 : κ ≤ 1 / 10 ^ 4 := by
    rw [hκd, ← mul_div_assoc, div_le_iff₀ hs]; linarith
  obtain ⟨huκ, i', j', ri, rj, di, dj, dk⟩ := axes_err hA.arith hκd hκ1 hc ei ej hne
  obtain ⟨nd, nn, -⟩ := first_axis hA.arith hne
  have hd : 0 < dot (vi - vp) (vi - vp) := by rw [← norm_sq]; positivity
  obtain ⟨δ, rδ, eδ⟩ := turnD_err hA.arith hmu hrp hd nd
  rw [← norm_sq] at eδ
  rw [← hκd]
  have ni : norm i = 1 := by unfold V3.norm; rw [hi, sqrt_one]
  have nj : norm j = 1 := by unfold V3.norm; rw [hj, sqrt_one]
  have nk : norm (cross i j) ≤ 1 := by have := norm_cross_le i j; rw [ni, nj] at this; linarith
  have run : fbVoutD A vi vp rp beta mu = some
      ⟨outD A.toArith (A.rd √(A.dot (A.sub vi vp) (A.sub vi vp))) (A.cos δ) (A.sin δ) (A.cos beta) (A.sin beta) vp.x i'.x j'.x (A.cross i' j').x,
      outD A.toArith (A.rd √(A.dot (A.sub vi vp) (A.sub vi vp))) (A.cos δ) (A.sin δ) (A.cos beta) (A.sin beta) vp.y i'.y j'.y (A.cross i' j').y,
      outD A.toArith (A.rd √(A.dot (A.sub vi vp) (A.sub vi vp))) (A.cos δ) (A.sin δ) (A.cos beta) (A.sin beta) vp.z i'.z j'.z (A.cross i' j').z⟩ := by
    unfold fbVoutD
    dsimp only
    rw [rδ]
    simp only [Option.bind_eq_bind, Option.bind_some]
    rw [ri]
    simp only [Option.bind_some]
    rw [rj]
    rfl
  refine ⟨_, δ, run, eδ, ?_⟩
  have nn' := nn.abs_le
  generalize A.rd √(A.dot (A.sub vi vp) (A.sub vi vp)) = vn at *
  have key : ∀ p a b c a' b' c' : ℝ, |p| ≤ norm vp → |a' - a| ≤ norm (i' - i) → |b' - b| ≤ norm (j' - j) → |c' - c| ≤ norm (A.cross i' j' - cross i j) →
      |a| ≤ norm i → |b| ≤ norm j → |c| ≤ norm (cross i j) →
      |outD A.toArith vn (A.cos δ) (A.sin δ) (A.cos beta) (A.sin beta) p a' b' c'
        - (p + norm (vi - vp) * (cos δ * a + cos beta * sin δ * b + sin beta * sin δ * c))| ≤ 160 * κ * norm (vi - vp) + 3.03 * u * norm vp := by
    intro p a b c a' b' c' hp ha hb hcc ba bb bc
    have := outD_err hA.arith (p := p) hn.le nn' (cos_err hA δ) (sin_err hA δ) (cos_err hA beta) (sin_err hA beta) (abs_cos_le_one _) (abs_sin_le_one _) (abs_cos_le_one _)
      (abs_sin_le_one _) (ha.trans di) (hb.trans dj) (hcc.trans dk) (ba.trans ni.le) (bb.trans nj.le) (bc.trans nk) huκ hκ1
    rw [show p + norm (vi - vp) * (cos δ * a + cos beta * sin δ * b + sin beta * sin δ * c) = p + norm (vi - vp) * cos δ * a + norm (vi - vp) * cos beta * sin δ * b
      + norm (vi - vp) * sin beta * sin δ * c by ring]
    have := mul_le_mul_of_nonneg_left hp (by linarith : 0 ≤ 3.03 * u)
    linarith
  have κ0 : 0 ≤ κ * norm (vi - vp) := mul_nonneg (hu.le.trans huκ) hn.le
  have w0 := mul_nonneg hu.le (norm_nonneg vp)
  obtain ⟨p1, p2, p3⟩ := abs_x_le vp
  obtain ⟨a1, a2, a3⟩ := abs_x_le (i' - i)
  obtain ⟨b1, b2, b3⟩ := abs_x_le (j' - j)
  obtain ⟨c1, c2, c3⟩ := abs_x_le (A.cross i' j' - cross i j)
  obtain ⟨d1, d2, d3⟩ := abs_x_le i
  obtain ⟨e1, e2, e3⟩ := abs_x_le j
  obtain ⟨f1, f2, f3⟩ := abs_x_le (cross i j)
  refine (norm_le_of_comp (m := 160 * κ * norm (vi - vp) + 3.03 * u * norm vp) (by linarith) (key _ _ _ _ _ _ _ p1 a1 b1 c1 d1 e1 f1) (key _ _ _ _ _ _ _ p2 a2 b2 c2 d2 e2 f2)
    (key _ _ _ _ _ _ _ p3 a3 b3 c3 d3 e3 f3)).trans ?_
  linarith

end Kep3
