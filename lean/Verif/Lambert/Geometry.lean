import Verif.Lambert.Model
import Verif.Elements.Frame

/-!
# The geometry of a transfer
-/

namespace Kep3
open Real V3

namespace Lambert

/-- What the geometry amounts to when the positions are not collinear: the triangle with sides `Rs`, `Rf`, `c` in terms of
`s`, `l` and `rho`, and the rotation by the transfer angle in the plane of motion. -/
structure Spec (r0 r1 : V3 ℝ) (cw : Bool) (g : Geom) (f : Frame) (ct st rho sg : ℝ) : Prop where
  frame : g.frame = some f
  Rs_pos : 0 < g.Rs
  Rf_pos : 0 < g.Rf
  c_pos : 0 < g.c
  s_pos : 0 < g.s
  r0_eq : r0 = g.Rs • f.irs
  r1_eq : r1 = g.Rf • f.irf
  uu : dot f.irs f.irs = 1
  tt : dot f.its f.its = 1
  ut : dot f.irs f.its = 0
  irf_eq : f.irf = ct • f.irs + st • f.its
  itf_eq : f.itf = (-st) • f.irs + ct • f.its
  unit : ct ^ 2 + st ^ 2 = 1
  rho_eq : rho = (g.Rs - g.Rf) / g.c
  sg_eq : sg = √(1 - rho * rho)
  sg_pos : 0 < sg
  sg_sq : sg ^ 2 = 1 - rho ^ 2
  Rs_eq : g.Rs = g.s / 2 * (1 + g.lam ^ 2 + rho * (1 - g.lam ^ 2))
  Rf_eq : g.Rf = g.s / 2 * (1 + g.lam ^ 2 - rho * (1 - g.lam ^ 2))
  c_eq : g.c = g.s * (1 - g.lam ^ 2)
  lam_lt : g.lam ^ 2 < 1
  cos_eq : g.Rs * g.Rf * ct = 2 * g.s ^ 2 * g.lam ^ 2 - g.Rs * g.Rf
  sin_eq : g.Rs * g.Rf * st = g.s ^ 2 * g.lam * (1 - g.lam ^ 2) * sg
  sense : if cw then (cross f.irs f.its).z < 0 else 0 < (cross f.irs f.its).z

theorem cross_smul_smul (a b : ℝ) (u v : V3 ℝ) : cross (a • u) (b • v) = (a * b) • cross u v := by
  ext <;> simp <;> ring

theorem cross_cross_left (u v : V3 ℝ) : cross (cross u v) u = dot u u • v - dot u v • u := by
  ext <;> simp [dot] <;> ring
theorem cross_cross_right (u v : V3 ℝ) : cross (cross u v) v = dot u v • v - dot v v • u := by
  ext <;> simp [dot] <;> ring

theorem vdiv_eq (v : V3 ℝ) (k : ℝ) : (⟨v.x / k, v.y / k, v.z / k⟩ : V3 ℝ) = (1 / k) • v := by
  ext <;> simp <;> ring

theorem norm_one {v : V3 ℝ} (h : dot v v = 1) : norm v = 1 := by unfold V3.norm; rw [h, sqrt_one]

theorem ne_of_cross {r0 r1 : V3 ℝ} (h : cross r0 r1 ≠ 0) : r0 ≠ 0 ∧ r1 ≠ 0 := by
  constructor
  · rintro rfl; apply h; ext <;> simp
  · rintro rfl; apply h; ext <;> simp

/-- The unit normal of two positions that are not collinear. -/
theorem normal_ok {r0 r1 : V3 ℝ} (h : cross r0 r1 ≠ 0) : ∃ k, 0 < k ∧
    normal r0 r1 = some ((1 / norm r0) • r0, (1 / norm r1) • r1, (1 / k) • cross r0 r1) ∧
    norm (cross r0 r1) = k := by
  obtain ⟨h0, h1⟩ := ne_of_cross h
  have n0 := norm_pos h0
  have n1 := norm_pos h1
  have nk := norm_pos h
  refine ⟨norm (cross r0 r1), nk, ?_, rfl⟩
  unfold normal
  rw [vdiv?_ok n0.ne', vdiv?_ok n1.ne']
  simp only [Option.bind_eq_bind, Option.bind_some, vdiv_eq, cross_smul_smul]
  have hn : norm ((1 / norm r0 * (1 / norm r1)) • cross r0 r1) = 1 / norm r0 * (1 / norm r1) * norm (cross r0 r1) := by
    unfold V3.norm
    rw [smul_dot, dot_smul, ← mul_assoc, sqrt_mul (mul_self_nonneg _), sqrt_mul_self]
    have := n0.le
    have := n1.le
    unfold V3.norm at *
    positivity
  rw [hn, vdiv?_ok (by positivity)]
  simp only [Option.bind_some, Option.pure_def, vdiv_eq]
  congr 3
  ext <;> simp <;> field_simp

theorem flip_sq (z : Option ℝ) (cw : Bool) : flip z cw * flip z cw = 1 := by
  unfold flip
  cases cw <;> by_cases h : (z.any (· < 0)) = true <;> simp [h]

/-- The argument of the square root of line 74. -/
theorem lambda2_nonneg (r0 r1 : V3 ℝ) :
    0 ≤ 1 - norm (r1 - r0) / ((norm (r1 - r0) + norm r0 + norm r1) / 2) := by
  have n0 := norm_nonneg r0
  have n1 := norm_nonneg r1
  have nc := norm_nonneg (r1 - r0)
  have hcs : dot r0 r1 ^ 2 ≤ (norm r0 * norm r1) ^ 2 := by
    rw [mul_pow, norm_sq, norm_sq]
    have := dot_self_nonneg (cross r0 r1)
    rw [cross_dot_cross] at this
    linarith
  have h1 := abs_le_of_sq_le_sq hcs (by positivity)
  have h2 := (abs_le.1 h1).1
  have htri : norm (r1 - r0) ≤ norm r0 + norm r1 := by
    apply abs_le_of_sq_le_sq' _ (by positivity) |>.2
    have : norm (r1 - r0) ^ 2 = norm r1 ^ 2 + norm r0 ^ 2 - 2 * dot r0 r1 := by
      rw [norm_sq, norm_sq, norm_sq, sub_dot, dot_sub, dot_sub, dot_comm r1 r0]; ring
    rw [this]
    nlinarith
  rcases eq_or_lt_of_le (show 0 ≤ (norm (r1 - r0) + norm r0 + norm r1) / 2 by positivity) with h | h
  · rw [← h]; simp
  · rw [sub_nonneg, div_le_one h]; linarith

/-- The rotation in the plane of motion, from two unit vectors and their unit normal. -/
theorem plane {u w n : V3 ℝ} {K e C : ℝ} (uu : dot u u = 1) (ww : dot w w = 1) (nn : dot n n = 1)
    (cruw : cross u w = K • n) (hK : 0 < K) (ee : e * e = 1) (hC : C = dot u w) :
    K ^ 2 + C ^ 2 = 1 ∧
    vdiv? (cross n u) (norm (cross n u)) = some (cross n u) ∧
    vdiv? (cross n w) (norm (cross n w)) = some (cross n w) ∧
    dot (e • cross n u) (e • cross n u) = 1 ∧ dot u (e • cross n u) = 0 ∧
    w = C • u + (e * K) • (e • cross n u) ∧
    e • cross n w = (-(e * K)) • u + C • (e • cross n u) ∧
    cross u (e • cross n u) = e • n := by
  have hK0 := hK.ne'
  have nu : dot n u = 0 := by
    have : K * dot n u = 0 := by rw [← smul_dot, ← cruw, cross_dot_left]
    exact (mul_eq_zero.1 this).resolve_left hK0
  have nw : dot n w = 0 := by
    have : K * dot n w = 0 := by rw [← smul_dot, ← cruw, cross_dot_right]
    exact (mul_eq_zero.1 this).resolve_left hK0
  have KC : K ^ 2 + C ^ 2 = 1 := by
    have := cross_dot_cross u w
    rw [cruw, smul_dot, dot_smul, nn, uu, ww] at this
    rw [hC]; linarith
  have knu : K • cross n u = w - C • u := by
    have := cross_cross_left u w
    rw [cruw, uu] at this
    rw [← show cross (K • n) u = K • cross n u by ext <;> simp <;> ring, this]
    ext <;> simp [hC]
  have knw : K • cross n w = C • w - u := by
    have := cross_cross_right u w
    rw [cruw, ww] at this
    rw [← show cross (K • n) w = K • cross n w by ext <;> simp <;> ring, this]
    ext <;> simp [hC]
  have nunu : dot (cross n u) (cross n u) = 1 := by rw [cross_dot_cross, nn, uu, nu]; ring
  have nwnw : dot (cross n w) (cross n w) = 1 := by rw [cross_dot_cross, nn, ww, nw]; ring
  have unu : dot u (cross n u) = 0 := by simp [dot]; ring
  refine ⟨KC, ?_, ?_, ?_, ?_, ?_, ?_, ?_⟩
  · rw [norm_one nunu, vdiv?_ok one_ne_zero, vdiv_eq]; congr 1; ext <;> simp
  · rw [norm_one nwnw, vdiv?_ok one_ne_zero, vdiv_eq]; congr 1; ext <;> simp
  · rw [smul_dot, dot_smul, nunu, mul_one, ee]
  · rw [dot_smul, unu, mul_zero]
  · have : (e * K) • (e • cross n u) = K • cross n u := by
      ext
      · simp only [smul_x]; linear_combination (K * (cross n u).x) * ee
      · simp only [smul_y]; linear_combination (K * (cross n u).y) * ee
      · simp only [smul_z]; linear_combination (K * (cross n u).z) * ee
    rw [this, knu]
    ext <;> simp
  · have a1 := congrArg V3.x knu
    have a2 := congrArg V3.y knu
    have a3 := congrArg V3.z knu
    have b1 := congrArg V3.x knw
    have b2 := congrArg V3.y knw
    have b3 := congrArg V3.z knw
    simp only [smul_x, smul_y, smul_z, sub_x, sub_y, sub_z] at a1 a2 a3 b1 b2 b3
    ext
    · simp only [smul_x, add_x]
      apply mul_left_cancel₀ hK0
      linear_combination e * b1 - e * C * a1 + e * u.x * KC
    · simp only [smul_y, add_y]
      apply mul_left_cancel₀ hK0
      linear_combination e * b2 - e * C * a2 + e * u.y * KC
    · simp only [smul_z, add_z]
      apply mul_left_cancel₀ hK0
      linear_combination e * b3 - e * C * a3 + e * u.z * KC
  · have h3 : cross u (e • cross n u) = e • (dot u u • n - dot n u • u) := by ext <;> simp [dot] <;> ring
    rw [h3, uu, nu]; ext <;> simp

/-- The triangle of the two positions. -/
theorem triangle {R0 R1 c C K e : ℝ} (n0 : 0 < R0) (n1 : 0 < R1) (hc0 : 0 ≤ c)
    (cc : c ^ 2 = R0 ^ 2 + R1 ^ 2 - 2 * (R0 * R1 * C)) (KC : K ^ 2 + C ^ 2 = 1) (hK : 0 < K) (ee : e * e = 1)
    {s l rho : ℝ} (hs : s = (c + R0 + R1) / 2) (hl : l = e * √(1 - c / s)) (hrho : rho = (R0 - R1) / c) :
    0 < c ∧ 0 < s ∧ 0 < √(1 - rho * rho) ∧ √(1 - rho * rho) ^ 2 = 1 - rho ^ 2 ∧
    R0 = s / 2 * (1 + l ^ 2 + rho * (1 - l ^ 2)) ∧ R1 = s / 2 * (1 + l ^ 2 - rho * (1 - l ^ 2)) ∧
    c = s * (1 - l ^ 2) ∧ l ^ 2 < 1 ∧
    R0 * R1 * C = 2 * s ^ 2 * l ^ 2 - R0 * R1 ∧
    R0 * R1 * (e * K) = s ^ 2 * l * (1 - l ^ 2) * √(1 - rho * rho) := by
  have RR : 0 < R0 * R1 := by positivity
  have hK2 : 0 < K ^ 2 := by positivity
  have C1 : C < 1 := by nlinarith
  have C2 : -1 < C := by nlinarith
  have cpos : 0 < c := by
    have : 0 < c ^ 2 := by
      rw [cc]; nlinarith [sq_nonneg (R0 - R1), mul_pos RR (sub_pos.2 C1)]
    exact lt_of_le_of_ne hc0 (fun h => by rw [← h] at this; simp at this)
  have ctri : c < R0 + R1 := by
    apply abs_lt_of_sq_lt_sq' _ (by positivity) |>.2
    rw [cc]; nlinarith [mul_pos RR (show 0 < 1 + C by linarith)]
  have spos : 0 < s := by rw [hs]; positivity
  obtain ⟨l2, hl2⟩ : ∃ l2, l2 = 1 - c / s := ⟨_, rfl⟩
  have l2pos : 0 ≤ l2 := by
    rw [hl2, sub_nonneg, div_le_one spos, hs]; linarith
  have l2lt : l2 < 1 := by
    have : 0 < c / s := by positivity
    linarith
  have lsq : l ^ 2 = l2 := by rw [hl, ← hl2, mul_pow, sq_sqrt l2pos, pow_two, ee]; ring
  have sl : s * l2 = s - c := by rw [hl2]; field_simp
  have rc : rho * c = R0 - R1 := by rw [hrho]; field_simp
  have cr : c ^ 2 * (1 - rho ^ 2) = 2 * (R0 * R1) * (1 - C) := by
    have : c ^ 2 * rho ^ 2 = (R0 - R1) ^ 2 := by rw [← rc]; ring
    linear_combination -this + cc
  have rho1 : 0 < 1 - rho ^ 2 := by
    have : 0 < c ^ 2 * (1 - rho ^ 2) := by rw [cr]; exact mul_pos (by positivity) (by linarith)
    exact pos_of_mul_pos_right this (sq_nonneg c)
  have sgpos : 0 < √(1 - rho * rho) := sqrt_pos.2 (by nlinarith)
  have sgsq : √(1 - rho * rho) ^ 2 = 1 - rho ^ 2 := by rw [sq_sqrt (by nlinarith)]; ring
  have cs : c = s * (1 - l2) := by linear_combination sl
  have h2s : c + R0 + R1 = 2 * s := by rw [hs]; ring
  have hcos : R0 * R1 * (1 + C) = 2 * s ^ 2 * l2 := by
    have : 2 * s ^ 2 * l2 = 2 * s * (s - c) := by rw [← sl]; ring
    rw [this, hs]
    linear_combination (1 / 2 : ℝ) * cc
  have hsin : R0 * R1 * K = s ^ 2 * √l2 * (1 - l2) * √(1 - rho * rho) := by
    have hA : 0 ≤ s ^ 2 * √l2 * (1 - l2) * √(1 - rho * rho) := by
      have := sqrt_nonneg l2
      have : 0 ≤ 1 - l2 := by linarith
      positivity
    have hB : 0 ≤ R0 * R1 * K := by positivity
    rw [← sqrt_sq hB, ← sqrt_sq hA]
    congr 1
    have e1 : (s ^ 2 * √l2 * (1 - l2) * √(1 - rho * rho)) ^ 2
        = (s ^ 2 * l2) * (s ^ 2 * (1 - l2) ^ 2 * (1 - rho ^ 2)) := by
      rw [mul_pow, mul_pow, mul_pow, sgsq, sq_sqrt l2pos]; ring
    rw [e1, show s ^ 2 * (1 - l2) ^ 2 = c ^ 2 by rw [cs]; ring, cr,
      show s ^ 2 * l2 = R0 * R1 * (1 + C) / 2 by rw [hcos]; ring]
    have : K ^ 2 = (1 - C) * (1 + C) := by linear_combination KC
    rw [mul_pow, this]; ring
  refine ⟨cpos, spos, sgpos, sgsq, ?_, ?_, ?_, ?_, ?_, ?_⟩
  · rw [lsq]
    linear_combination (-1 / 2 : ℝ) * sl + (1 / 2 : ℝ) * rho * sl - (1 / 2 : ℝ) * rc + (1 / 2 : ℝ) * h2s
  · rw [lsq]
    linear_combination (-1 / 2 : ℝ) * sl - (1 / 2 : ℝ) * rho * sl + (1 / 2 : ℝ) * rc + (1 / 2 : ℝ) * h2s
  · rw [lsq]; exact cs
  · rw [lsq]; exact l2lt
  · rw [lsq]; linear_combination hcos
  · rw [lsq, hl, ← hl2]; linear_combination e * hsin

theorem flip_eq (z : ℝ) (cw : Bool) :
    flip (some z) cw = if cw then (if z < 0 then 1 else -1) else (if z < 0 then -1 else 1) := by
  unfold flip
  cases cw <;> by_cases h : z < 0 <;> simp [h]

theorem geom_spec {r0 r1 : V3 ℝ} (cw : Bool) (hz : (cross r0 r1).z ≠ 0) :
    ∃ g f ct st rho sg, geom r0 r1 cw = .ok g ∧ Spec r0 r1 cw g f ct st rho sg := by
  have hx : cross r0 r1 ≠ 0 := fun h => hz (by rw [h]; rfl)
  obtain ⟨h0, h1⟩ := ne_of_cross hx
  have n0 := norm_pos h0
  have n1 := norm_pos h1
  obtain ⟨k, hk, hn, hkn⟩ := normal_ok hx
  obtain ⟨u, hu⟩ : ∃ u : V3 ℝ, u = (1 / norm r0) • r0 := ⟨_, rfl⟩
  obtain ⟨w, hw⟩ : ∃ w : V3 ℝ, w = (1 / norm r1) • r1 := ⟨_, rfl⟩
  obtain ⟨n, hnd⟩ : ∃ n : V3 ℝ, n = (1 / k) • cross r0 r1 := ⟨_, rfl⟩
  rw [← hu, ← hw, ← hnd] at hn
  obtain ⟨e, he⟩ : ∃ e, e = flip (some n.z) cw := ⟨_, rfl⟩
  have ee : e * e = 1 := by rw [he]; exact flip_sq _ _
  have hnz : n.z ≠ 0 := by
    rw [hnd]; simp only [smul_z]; exact mul_ne_zero (by positivity) hz
  have r0u : r0 = norm r0 • u := by rw [hu]; ext <;> simp <;> field_simp
  have r1w : r1 = norm r1 • w := by rw [hw]; ext <;> simp <;> field_simp
  have uu : dot u u = 1 := by
    rw [hu, smul_dot, dot_smul, ← norm_sq]; field_simp
  have ww : dot w w = 1 := by
    rw [hw, smul_dot, dot_smul, ← norm_sq]; field_simp
  have nn : dot n n = 1 := by
    rw [hnd, smul_dot, dot_smul, ← norm_sq, hkn]; field_simp
  obtain ⟨K, hK⟩ : ∃ K, K = k / (norm r0 * norm r1) := ⟨_, rfl⟩
  have Kpos : 0 < K := by rw [hK]; positivity
  have cruw : cross u w = K • n := by
    rw [hu, hw, cross_smul_smul, hnd]
    ext <;> simp [hK] <;> field_simp
  obtain ⟨C, hC⟩ : ∃ C, C = dot u w := ⟨_, rfl⟩
  obtain ⟨KC, d1, d2, p1, p2, p3, p4, p5⟩ := plane uu ww nn cruw Kpos ee hC
  have cc : norm (r1 - r0) ^ 2 = norm r0 ^ 2 + norm r1 ^ 2 - 2 * (norm r0 * norm r1 * C) := by
    have e1 : dot r0 r1 = norm r0 * norm r1 * C := by
      conv_lhs => rw [r0u, r1w]
      rw [smul_dot, dot_smul, hC]; ring
    rw [norm_sq, sub_dot, dot_sub, dot_sub, dot_comm r1 r0, e1, norm_sq, norm_sq]; ring
  obtain ⟨q1, q2, q3, q4, q5, q6, q7, q8, q9, q10⟩ :=
    triangle n0 n1 (V3.norm_nonneg (r1 - r0)) cc KC Kpos ee rfl rfl rfl
  obtain ⟨g, hg⟩ : ∃ g : Geom, g = ⟨norm (r1 - r0), (norm (r1 - r0) + norm r0 + norm r1) / 2, norm r0, norm r1,
    e * √(1 - norm (r1 - r0) / ((norm (r1 - r0) + norm r0 + norm r1) / 2)),
    some ⟨u, w, e • cross n u, e • cross n w⟩⟩ := ⟨_, rfl⟩
  have hgeom : geom r0 r1 cw = .ok g := by
    rw [hg]
    unfold geom
    rw [hn]
    simp only [Option.map_some]
    rw [if_neg (by simpa using hnz), ← he]; simp only [Option.bind_eq_bind, Option.bind_some, d1, d2]
    rfl
  have g1 : g.c = norm (r1 - r0) := by rw [hg]
  have g2 : g.s = (norm (r1 - r0) + norm r0 + norm r1) / 2 := by rw [hg]
  have g3 : g.Rs = norm r0 := by rw [hg]
  have g4 : g.Rf = norm r1 := by rw [hg]
  have g5 : g.lam = e * √(1 - norm (r1 - r0) / ((norm (r1 - r0) + norm r0 + norm r1) / 2)) := by rw [hg]
  have g6 : g.frame = some ⟨u, w, e • cross n u, e • cross n w⟩ := by rw [hg]
  clear hg
  rw [← g5, ← g2, ← g3, ← g4, ← g1] at q10
  rw [← g5, ← g2, ← g3, ← g4] at q9
  rw [← g5] at q8
  rw [← g5, ← g2, ← g1] at q7
  rw [← g5, ← g2, ← g3, ← g4, ← g1] at q5 q6
  rw [← g3, ← g4, ← g1] at q3 q4
  rw [← g2] at q2
  rw [← g1] at q1
  rw [← g3] at n0 r0u
  rw [← g4] at n1 r1w
  refine ⟨g, ⟨u, w, e • cross n u, e • cross n w⟩, C, e * K, (g.Rs - g.Rf) / g.c, _, hgeom,
    ⟨g6, n0, n1, q1, q2, r0u, r1w, uu, p1, p2, p3, p4, ?_, rfl, rfl, q3, q4, q5, q6, q7, q8, q9, q10, ?_⟩⟩
  · linear_combination KC + K ^ 2 * ee
  · show if cw = true then (cross u (e • cross n u)).z < 0 else 0 < (cross u (e • cross n u)).z
    rw [p5, he, flip_eq]
    rcases lt_or_gt_of_ne hnz with h | h
    · cases cw <;> simp [h]
    · cases cw <;> simp [h, h.not_gt]

end Lambert
end Kep3
