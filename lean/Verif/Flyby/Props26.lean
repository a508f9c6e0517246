import Verif.Flyby.Model
import Mathlib.Tactic.LinearCombination

/-!
# Fly-by properties
-/

namespace Kep3
open Real V3

/-- The turn angle of a hyperbola with pericentre `rp` and squared excess speed `v2`. -/
noncomputable def turnAngle (rp v2 mu : ℝ) : ℝ := 2 * arcsin (1 / (1 + rp * v2 / mu))

theorem turn_arg {rp v2 mu : ℝ} (hmu : 0 < mu) (hv : 0 < v2) (hrp : 0 < rp) :
    0 < 1 / (1 + rp * v2 / mu) ∧ 1 / (1 + rp * v2 / mu) < 1 := by
  have : 0 < rp * v2 / mu := by positivity
  exact ⟨by positivity, by rw [div_lt_one (by linarith)]; linarith⟩

theorem turnAngle_mem {rp v2 mu : ℝ} (hmu : 0 < mu) (hv : 0 < v2) (hrp : 0 < rp) :
    0 < turnAngle rp v2 mu ∧ turnAngle rp v2 mu < π := by
  obtain ⟨h1, h2⟩ := turn_arg hmu hv hrp
  unfold turnAngle
  have := arcsin_pos.2 h1
  have h3 := arcsin_lt_pi_div_two.2 h2
  constructor <;> linarith

theorem turnAngle_le_iff {r1 r2 v2 mu : ℝ} (hmu : 0 < mu) (hv : 0 < v2) (h1 : 0 < r1) (h2 : 0 < r2) :
    turnAngle r1 v2 mu ≤ turnAngle r2 v2 mu ↔ r2 ≤ r1 := by
  obtain ⟨a1, b1⟩ := turn_arg hmu hv h1
  obtain ⟨a2, b2⟩ := turn_arg hmu hv h2
  unfold turnAngle
  have p1 : 0 < 1 + r1 * v2 / mu := by positivity
  have p2 : 0 < 1 + r2 * v2 / mu := by positivity
  rw [mul_le_mul_iff_right₀ two_pos, strictMonoOn_arcsin.le_iff_le (Set.mem_Icc.2 ⟨by linarith, b1.le⟩) (Set.mem_Icc.2 ⟨by linarith, b2.le⟩),
    one_div_le_one_div p1 p2, add_le_add_iff_left, div_le_div_iff_of_pos_right hmu, mul_le_mul_iff_left₀ hv]

/-- Every positive angle up to the turn angle at `rs` is the turn angle at some pericentre not below `rs`. -/
theorem turnAngle_surj {rs v2 mu t : ℝ} (hmu : 0 < mu) (hv : 0 < v2) (hrs : 0 < rs) (ht : 0 < t)
    (hle : t ≤ turnAngle rs v2 mu) : ∃ rp, rs ≤ rp ∧ turnAngle rp v2 mu = t := by
  have hpi := (turnAngle_mem hmu hv hrs).2
  have hs : 0 < sin (t / 2) := sin_pos_of_pos_of_lt_pi (by linarith) (by linarith)
  have hs1 : sin (t / 2) < 1 := by
    have := sin_lt_sin_of_lt_of_le_pi_div_two (show -(π / 2) ≤ t / 2 by linarith [pi_pos]) (le_refl (π / 2)) (by linarith)
    rwa [sin_pi_div_two] at this
  have hpos : 0 < mu / v2 * (1 / sin (t / 2) - 1) := by
    have : 1 < 1 / sin (t / 2) := by rw [lt_div_iff₀ hs]; linarith
    have : 0 < 1 / sin (t / 2) - 1 := by linarith
    positivity
  have ht2 : turnAngle (mu / v2 * (1 / sin (t / 2) - 1)) v2 mu = t := by
    unfold turnAngle
    have : 1 / (1 + mu / v2 * (1 / sin (t / 2) - 1) * v2 / mu) = sin (t / 2) := by field_simp; ring_nf
    rw [this, arcsin_sin (by linarith) (by linarith)]
    ring
  refine ⟨_, ?_, ht2⟩
  rw [← turnAngle_le_iff hmu hv hpos hrs, ht2]
  exact hle

theorem abs_dot_le (a b : V3 ℝ) : |dot a b| ≤ norm a * norm b := by
  apply abs_le_of_sq_le_sq _ (mul_nonneg (norm_nonneg a) (norm_nonneg b))
  rw [mul_pow, norm_sq, norm_sq]
  have := lagrange a b
  nlinarith [dot_self_nonneg (cross a b)]

/-- The code's turn angle, for non-zero velocities. -/
theorem fbIneq_run {vin vout : V3 ℝ} {mu safe : ℝ} (hmu : 0 < mu) (hs : 0 < safe) (hi : vin ≠ 0) (ho : vout ≠ 0) :
    fbIneq vin vout mu safe = some (arccos (dot vin vout / (norm vin * norm vout)) - turnAngle safe (dot vin vin) mu) := by
  have ni := norm_pos hi
  have no := norm_pos ho
  have h2 : (0 : ℝ) ≤ dot vin vin * dot vout vout := mul_nonneg (dot_self_nonneg _) (dot_self_nonneg _)
  have hsq : √(dot vin vin * dot vout vout) = norm vin * norm vout := by
    rw [sqrt_mul (dot_self_nonneg _)]; rfl
  have habs := abs_le.1 (abs_dot_le vin vout)
  have hp : 0 < norm vin * norm vout := by positivity
  have hdi : 0 < dot vin vin := by rw [← norm_sq]; positivity
  obtain ⟨a1, a2⟩ := turn_arg hmu hdi hs
  have he : safe / mu * dot vin vin = safe * dot vin vin / mu := by ring
  show (do
    let q ← div? safe mu
    let s ← sqrt? (dot vin vin * dot vout vout)
    let c ← div? (dot vin vout) s
    let alpha ← acos? c
    let ie ← div? 1 (1 + q * dot vin vin)
    let d ← asin? ie
    return alpha - 2 * d : Option ℝ) = _
  simp only [div?_ok hmu.ne', sqrt?_ok h2, hsq, Option.bind_eq_bind, Option.bind_some, div?_ok hp.ne']
  rw [acos?_ok ⟨by rw [le_div_iff₀ hp]; linarith, by rw [div_le_iff₀ hp]; linarith⟩, Option.bind_some, he,
    div?_ok (by positivity), Option.bind_some, asin?_ok ⟨by linarith, a2.le⟩]
  rfl

/-- **C27**: both constraint values exist for non-zero velocities; the equality constraint is zero exactly when the
relative speeds agree; the inequality constraint is non-positive exactly when there is no turn at all or the turn angle
is that of a hyperbola whose pericentre is not below the safe radius. -/
theorem C27_constraints {vin vout : V3 ℝ} {mu safe : ℝ} (hmu : 0 < mu) (hs : 0 < safe) (hi : vin ≠ 0) (ho : vout ≠ 0) :
    ∃ eq ineq, fbCon vin vout mu safe = (eq, some ineq) ∧ (eq = 0 ↔ norm vin = norm vout) ∧
      (ineq ≤ 0 ↔ dot vin vout = norm vin * norm vout ∨
        ∃ rp, safe ≤ rp ∧
          dot vin vout = norm vin * norm vout * cos (2 * arcsin (1 / (1 + rp * norm vin ^ 2 / mu)))) := by
  have ni := norm_pos hi
  have no := norm_pos ho
  have hp : 0 < norm vin * norm vout := by positivity
  have hdi : 0 < dot vin vin := by rw [← norm_sq]; positivity
  have habs := abs_le.1 (abs_dot_le vin vout)
  refine ⟨dot vin vin - dot vout vout,
    arccos (dot vin vout / (norm vin * norm vout)) - turnAngle safe (dot vin vin) mu, ?_, ?_, ?_⟩
  · unfold fbCon; rw [fbIneq_run hmu hs hi ho]; rfl
  · rw [sub_eq_zero, ← norm_sq, ← norm_sq]
    exact sq_eq_sq₀ ni.le no.le
  · obtain ⟨c, hc⟩ : ∃ c, c = dot vin vout / (norm vin * norm vout) := ⟨_, rfl⟩
    have hd : dot vin vout = norm vin * norm vout * c := by rw [hc]; field_simp
    have c1 : -1 ≤ c := by rw [hc, le_div_iff₀ hp]; linarith
    have c2 : c ≤ 1 := by rw [hc, div_le_iff₀ hp]; linarith
    rw [← hc, hd, norm_sq]
    have key : ∀ u, norm vin * norm vout * c = norm vin * norm vout * u ↔ c = u :=
      fun u => mul_right_inj' hp.ne'
    have key1 : norm vin * norm vout * c = norm vin * norm vout ↔ c = 1 := by
      have := key 1; rwa [mul_one] at this
    rw [key1, sub_nonpos]
    have e : ∀ rp, turnAngle rp (dot vin vin) mu = 2 * arcsin (1 / (1 + rp * dot vin vin / mu)) := fun _ => rfl
    constructor
    · intro h
      rcases (arccos_nonneg c).eq_or_lt with h0 | h0
      · left
        have := arccos_eq_zero.1 h0.symm; linarith
      · obtain ⟨rp, h1, h2⟩ := turnAngle_surj hmu hdi hs h0 h
        refine Or.inr ⟨rp, h1, (key _).2 ?_⟩
        rw [← e, h2, cos_arccos c1 c2]
    · rintro (h | ⟨rp, h1, h2⟩)
      · rw [h, arccos_one]; exact (turnAngle_mem hmu hdi hs).1.le
      · have hrp : 0 < rp := by linarith
        obtain ⟨m1, m2⟩ := turnAngle_mem hmu hdi hrp
        rw [(key _).1 h2, ← e, arccos_cos m1.le m2.le]
        exact (turnAngle_le_iff hmu hdi hrp hs).2 h1

/-- The frame of `fb_vout`. -/
theorem fbVout_frame {vi vp : V3 ℝ} {rp mu : ℝ} (hmu : 0 < mu) (hrp : 0 < rp) (hc : cross vi vp ≠ 0) :
    ∃ i j k : V3 ℝ, dot i i = 1 ∧ dot j j = 1 ∧ dot i j = 0 ∧ k = cross i j ∧ i = (1 / norm (vi - vp)) • (vi - vp) ∧ j = (1 / norm (cross i vp)) • cross i vp ∧ vi - vp = norm (vi - vp) • i ∧
      0 < norm (vi - vp) ∧ ∀ beta, fbVout vi vp rp beta mu = some (vp +
        norm (vi - vp) • (cos (turnAngle rp (dot (vi - vp) (vi - vp)) mu) • i
          + (cos beta * sin (turnAngle rp (dot (vi - vp) (vi - vp)) mu)) • j
          + (sin beta * sin (turnAngle rp (dot (vi - vp) (vi - vp)) mu)) • k)) := by
  have hne : vi - vp ≠ 0 := by
    intro h
    apply hc
    have h1 := congrArg V3.x h
    have h2 := congrArg V3.y h
    have h3 := congrArg V3.z h
    simp only [sub_x, sub_y, sub_z, zero_x, zero_y, zero_z] at h1 h2 h3
    ext <;> simp only [cross_x, cross_y, cross_z, zero_x, zero_y, zero_z]
    · linear_combination vp.z * h2 - vp.y * h3
    · linear_combination vp.x * h3 - vp.z * h1
    · linear_combination vp.y * h1 - vp.x * h2
  have hn := norm_pos hne
  have hd : 0 < dot (vi - vp) (vi - vp) := by rw [← norm_sq]; positivity
  obtain ⟨a1, a2⟩ := turn_arg hmu hd hrp
  obtain ⟨i, hi⟩ : ∃ i : V3 ℝ, i = (1 / norm (vi - vp)) • (vi - vp) := ⟨_, rfl⟩
  have hii : dot i i = 1 := by
    rw [hi, dot_smul, smul_dot, ← norm_sq]; field_simp
  have hvi : vi - vp = norm (vi - vp) • i := by rw [hi]; ext <;> simp <;> field_simp
  have hjne : cross i vp ≠ 0 := by
    intro h
    apply hc
    have : cross vi vp = norm (vi - vp) • cross i vp := by
      have e : cross vi vp = cross (vi - vp) vp := by ext <;> simp <;> ring
      rw [e]; nth_rewrite 1 [hvi]; ext <;> simp <;> ring
    rw [this, h]; ext <;> simp
  have hjn := norm_pos hjne
  refine ⟨i, (1 / norm (cross i vp)) • cross i vp, _, hii, ?_, ?_, rfl, hi, rfl, hvi, hn, ?_⟩
  · rw [dot_smul, smul_dot, ← norm_sq]; field_simp
  · rw [dot_smul]; simp [dot]; ring_nf; simp
  · intro beta
    have he : rp / mu * dot (vi - vp) (vi - vp) = rp * dot (vi - vp) (vi - vp) / mu := by ring
    show (do
      let q ← div? rp mu
      let ie ← div? 1 (1 + q * dot (vi - vp) (vi - vp))
      let d ← asin? ie
      let i ← vdiv? (vi - vp) (norm (vi - vp))
      let j ← vdiv? (cross i vp) (norm (cross i vp))
      return ⟨vp.x + norm (vi - vp) * cos (2 * d) * i.x + norm (vi - vp) * cos beta * sin (2 * d) * j.x
          + norm (vi - vp) * sin beta * sin (2 * d) * (cross i j).x,
        vp.y + norm (vi - vp) * cos (2 * d) * i.y + norm (vi - vp) * cos beta * sin (2 * d) * j.y
          + norm (vi - vp) * sin beta * sin (2 * d) * (cross i j).y,
        vp.z + norm (vi - vp) * cos (2 * d) * i.z + norm (vi - vp) * cos beta * sin (2 * d) * j.z
          + norm (vi - vp) * sin beta * sin (2 * d) * (cross i j).z⟩ : Option (V3 ℝ)) = _
    simp only [div?_ok hmu.ne', Option.bind_eq_bind, Option.bind_some]
    rw [he, div?_ok (by positivity), Option.bind_some, asin?_ok ⟨by linarith, a2.le⟩, Option.bind_some]
    have hv : vdiv? (vi - vp) (norm (vi - vp)) = some i := by
      unfold vdiv?; rw [if_neg hn.ne', hi, smul_one_div]
    rw [hv, Option.bind_some]
    have hv : vdiv? (cross i vp) (norm (cross i vp)) = some ((1 / norm (cross i vp)) • cross i vp) := by
      unfold vdiv?; rw [if_neg hjn.ne', smul_one_div]
    rw [hv, Option.bind_some]
    refine congrArg some ?_
    rw [show 2 * arcsin (1 / (1 + rp * dot (vi - vp) (vi - vp) / mu)) = turnAngle rp (dot (vi - vp) (vi - vp)) mu from rfl]
    generalize (1 / norm (cross i vp)) • cross i vp = j
    ext <;> simp only [add_x, add_y, add_z, smul_x, smul_y, smul_z] <;> ring

theorem fbVout_run {vi vp : V3 ℝ} {rp mu : ℝ} (hmu : 0 < mu) (hrp : 0 < rp) (hc : cross vi vp ≠ 0) :
    ∃ i j k : V3 ℝ, dot i i = 1 ∧ dot j j = 1 ∧ dot i j = 0 ∧ k = cross i j ∧ vi - vp = norm (vi - vp) • i ∧
      0 < norm (vi - vp) ∧ ∀ beta, fbVout vi vp rp beta mu = some (vp +
        norm (vi - vp) • (cos (turnAngle rp (dot (vi - vp) (vi - vp)) mu) • i
          + (cos beta * sin (turnAngle rp (dot (vi - vp) (vi - vp)) mu)) • j
          + (sin beta * sin (turnAngle rp (dot (vi - vp) (vi - vp)) mu)) • k)) := by
  obtain ⟨i, j, k, h1, h2, h3, h4, -, -, h⟩ := fbVout_frame (vi := vi) hmu hrp hc
  exact ⟨i, j, k, h1, h2, h3, h4, h⟩

theorem frame_dot {i j : V3 ℝ} (hi : dot i i = 1) (hj : dot j j = 1) (hij : dot i j = 0) (a b c a' b' c' : ℝ) :
    dot (a • i + b • j + c • cross i j) (a' • i + b' • j + c' • cross i j) = a * a' + b * b' + c * c' := by
  have h1 : dot i (cross i j) = 0 := dot_cross_self_left _ _
  have h2 : dot j (cross i j) = 0 := dot_cross_self_right _ _
  have h3 : dot (cross i j) (cross i j) = 1 := by rw [lagrange, hi, hj, hij]; ring
  simp only [dot_add, add_dot, dot_smul, smul_dot, hi, hj, hij, h1, h2, h3, dot_comm j i, dot_comm (cross i j) i,
    dot_comm (cross i j) j]
  ring

/-- **C26**: `fb_vout` keeps the speed relative to the planet, and turns the relative velocity by the angle
`2 asin (1 / (1 + rp v^2 / mu))`, for every `beta`. -/
theorem C26_rotation {vi vp : V3 ℝ} {rp mu : ℝ} (hmu : 0 < mu) (hrp : 0 < rp) (hc : cross vi vp ≠ 0) (beta : ℝ) :
    ∃ vo, fbVout vi vp rp beta mu = some vo ∧ norm (vo - vp) = norm (vi - vp) ∧
      dot (vo - vp) (vi - vp)
        = norm (vi - vp) ^ 2 * cos (2 * arcsin (1 / (1 + rp * norm (vi - vp) ^ 2 / mu))) := by
  obtain ⟨i, j, k, hi, hj, hij, hk, hv, hn, hrun⟩ := fbVout_run hmu hrp hc
  refine ⟨_, hrun beta, ?_⟩
  rw [norm_sq]
  rw [show 2 * arcsin (1 / (1 + rp * dot (vi - vp) (vi - vp) / mu)) = turnAngle rp (dot (vi - vp) (vi - vp)) mu from rfl]
  generalize turnAngle rp (dot (vi - vp) (vi - vp)) mu = δ
  have hsq := norm_mul_self (vi - vp)
  obtain ⟨n, hn'⟩ : ∃ n, n = norm (vi - vp) := ⟨_, rfl⟩
  rw [← hn'] at hv hn hsq ⊢
  have e : ∀ u : V3 ℝ, vp + u - vp = u := by intro u; ext <;> simp
  rw [e]
  subst hk
  constructor
  · unfold V3.norm
    rw [dot_smul, smul_dot, frame_dot hi hj hij]
    have : n * (n * (cos δ * cos δ + cos beta * sin δ * (cos beta * sin δ) + sin beta * sin δ * (sin beta * sin δ))) = n ^ 2 := by
      have h1 := sin_sq_add_cos_sq δ
      have h2 := sin_sq_add_cos_sq beta
      linear_combination n ^ 2 * h1 + n ^ 2 * sin δ ^ 2 * h2
    rw [this, sqrt_sq hn.le]
  · rw [← hsq]
    rw [hv]
    have : i = (1 : ℝ) • i + (0 : ℝ) • j + (0 : ℝ) • cross i j := by ext <;> simp
    rw [dot_smul, smul_dot]
    nth_rewrite 3 [this]
    rw [frame_dot hi hj hij]
    ring

/-- **C26**: every relative velocity with the incoming relative speed on the cone of that angle is the result for some
`beta`, and only for that one up to full turns. -/
theorem C26_cone {vi vp : V3 ℝ} {rp mu : ℝ} (hmu : 0 < mu) (hrp : 0 < rp) (hc : cross vi vp ≠ 0) (w : V3 ℝ)
    (hw : norm (w - vp) = norm (vi - vp))
    (ha : dot (w - vp) (vi - vp)
      = norm (vi - vp) ^ 2 * cos (2 * arcsin (1 / (1 + rp * norm (vi - vp) ^ 2 / mu)))) :
    ∃ beta, fbVout vi vp rp beta mu = some w ∧
      ∀ beta', fbVout vi vp rp beta' mu = some w → ∃ m : ℤ, beta' = beta + 2 * π * m := by
  obtain ⟨i, j, k, hi, hj, hij, hk, hv, hn, hrun⟩ := fbVout_run hmu hrp hc
  have hd : 0 < dot (vi - vp) (vi - vp) := by rw [← norm_sq]; positivity
  obtain ⟨m1, m2⟩ := turnAngle_mem hmu hd hrp
  rw [norm_sq] at ha
  rw [show 2 * arcsin (1 / (1 + rp * dot (vi - vp) (vi - vp) / mu)) = turnAngle rp (dot (vi - vp) (vi - vp)) mu from rfl] at ha
  have hs := sin_pos_of_pos_of_lt_pi m1 m2
  obtain ⟨δ, hδ⟩ : ∃ δ, δ = turnAngle rp (dot (vi - vp) (vi - vp)) mu := ⟨_, rfl⟩
  rw [← hδ] at ha hs
  simp only [← hδ] at hrun
  have hsq := norm_mul_self (vi - vp)
  obtain ⟨n, hn'⟩ : ∃ n, n = norm (vi - vp) := ⟨_, rfl⟩
  rw [← hn'] at hv hn hsq hw
  simp only [← hn'] at hrun
  rw [← hsq] at ha
  subst hk
  have h1 : dot i (cross i j) = 0 := dot_cross_self_left _ _
  have h2 : dot j (cross i j) = 0 := dot_cross_self_right _ _
  have h3 : dot (cross i j) (cross i j) = 1 := by rw [lagrange, hi, hj, hij]; ring
  -- components of w
  obtain ⟨A, hA⟩ : ∃ A, A = dot (w - vp) i := ⟨_, rfl⟩
  obtain ⟨B, hB⟩ : ∃ B, B = dot (w - vp) j := ⟨_, rfl⟩
  obtain ⟨C, hC⟩ : ∃ C, C = dot (w - vp) (cross i j) := ⟨_, rfl⟩
  have hdec : w - vp = A • i + B • j + C • cross i j := by
    refine eq_of_frame (n := i) (W := j) hi hj hij ?_ ?_ ?_
    · simp only [add_dot, smul_dot, hi, dot_comm j i, hij, dot_comm (cross i j) i, h1]; rw [← hA]; ring
    · have e : cross j i = -cross i j := by ext <;> simp <;> ring
      have e2 : ∀ u : V3 ℝ, dot u (-cross i j) = - dot u (cross i j) := by intro u; simp [dot]; ring
      rw [e, e2, e2]
      simp only [add_dot, smul_dot, h1, h2, h3]; rw [← hC]; ring
    · simp only [add_dot, smul_dot, hij, hj, dot_comm (cross i j) j, h2]; rw [← hB]; ring
  have hAval : A = n * cos δ := by
    rw [hv, dot_smul, ← hA] at ha
    have := mul_left_cancel₀ hn.ne' (show n * A = n * (n * cos δ) by linarith)
    exact this
  have hBC : B ^ 2 + C ^ 2 = (n * sin δ) ^ 2 := by
    have : dot (w - vp) (w - vp) = n ^ 2 := by rw [← norm_sq, hw]
    rw [hdec, frame_dot hi hj hij, hAval] at this
    have h1 := sin_sq_add_cos_sq δ
    linear_combination this - n ^ 2 * h1
  have hns : 0 < n * sin δ := by positivity
  have hpos : 0 < B ^ 2 + C ^ 2 := by rw [hBC]; positivity
  have hcos := atan2_cos hpos
  have hsin := atan2_sin hpos
  rw [hBC, sqrt_sq hns.le] at hcos hsin
  have hw' : w = vp + (w - vp) := by ext <;> simp
  have run : fbVout vi vp rp (atan2 C B) mu = some w := by
    rw [hrun, hw', hdec, hAval]
    refine congrArg some (congrArg (vp + ·) ?_)
    have e1 : cos (atan2 C B) * (n * sin δ) = B := by rw [mul_comm]; exact hcos
    have e2 : sin (atan2 C B) * (n * sin δ) = C := by rw [mul_comm]; exact hsin
    ext <;> simp only [add_x, add_y, add_z, smul_x, smul_y, smul_z]
    · linear_combination j.x * e1 + (cross i j).x * e2
    · linear_combination j.y * e1 + (cross i j).y * e2
    · linear_combination j.z * e1 + (cross i j).z * e2
  refine ⟨atan2 C B, run, fun b hb => ?_⟩
  rw [hrun] at run hb
  have heq := (Option.some.inj hb).trans (Option.some.inj run).symm
  have hB' := congrArg (fun u => dot (u - vp) j) heq
  have hC' := congrArg (fun u => dot (u - vp) (cross i j)) heq
  have e : ∀ u : V3 ℝ, vp + u - vp = u := by intro u; ext <;> simp
  simp only [e, smul_dot, add_dot, hij, hj, h1, h2, h3, dot_comm (cross i j) j] at hB' hC'
  have cb : cos b = cos (atan2 C B) := by
    refine mul_left_cancel₀ hns.ne' ?_; linear_combination hB'
  have sb : sin b = sin (atan2 C B) := by
    refine mul_left_cancel₀ hns.ne' ?_; linear_combination hC'
  have : (b : Real.Angle) = (atan2 C B : Real.Angle) := by
    apply Real.Angle.cos_sin_inj <;> simpa using by assumption
  obtain ⟨m, hm⟩ := Real.Angle.angle_eq_iff_two_pi_dvd_sub.1 this
  exact ⟨m, by linarith⟩

/-- **C26**: when the two velocities are parallel there is no number. -/
theorem C26_parallel {vi vp : V3 ℝ} (rp beta mu : ℝ) (hc : cross vi vp = 0) : fbVout vi vp rp beta mu = none := by
  unfold fbVout
  cases div? rp mu with
  | none => rfl
  | some q =>
    simp only [Option.bind_eq_bind, Option.bind_some]
    cases div? 1 _ with
    | none => rfl
    | some ie =>
      simp only [Option.bind_some]
      cases asin? ie with
      | none => rfl
      | some d =>
        simp only [Option.bind_some]
        show ((vdiv? (vi - vp) (norm (vi - vp))).bind fun i =>
          (vdiv? (cross i vp) (norm (cross i vp))).bind fun j => _) = _
        cases h : vdiv? (vi - vp) (norm (vi - vp)) with
        | none => rfl
        | some i =>
          have hi : i = (1 / norm (vi - vp)) • (vi - vp) := by
            unfold vdiv? at h
            split at h
            · exact nomatch h
            · rw [← smul_one_div]; exact (Option.some.inj h).symm
          have : cross i vp = 0 := by
            have e : cross i vp = (1 / norm (vi - vp)) • cross vi vp := by
              rw [hi]; ext <;> simp <;> ring
            rw [e, hc]; ext <;> simp
          rw [Option.bind_some, this]
          have : norm (0 : V3 ℝ) = 0 := norm_eq_zero.2 rfl
          rw [this]
          unfold vdiv?
          rw [if_pos rfl]
          rfl

/-- **C27**: the output of `fb_vout` with pericentre `rp` satisfies the equality constraint, and satisfies the inequality
constraint for the safe radius `rs` exactly when `rp >= rs`. -/
theorem C27_vout {vi vp : V3 ℝ} {rp rs mu : ℝ} (hmu : 0 < mu) (hrp : 0 < rp) (hrs : 0 < rs) (hc : cross vi vp ≠ 0)
    {beta : ℝ} {vo : V3 ℝ} (h : fbVout vi vp rp beta mu = some vo) :
    ∃ ineq, fbCon (vi - vp) (vo - vp) mu rs = (0, some ineq) ∧ (ineq ≤ 0 ↔ rs ≤ rp) := by
  obtain ⟨vo', h1, h2, h3⟩ := C26_rotation hmu hrp hc beta
  have : vo' = vo := by rw [h] at h1; exact (Option.some.inj h1).symm
  subst this
  obtain ⟨i, j, k, -, -, -, -, -, hn, -⟩ := fbVout_run hmu hrp hc
  have hi : vi - vp ≠ 0 := fun h => hn.ne' (norm_eq_zero.2 h)
  have ho : vo' - vp ≠ 0 := fun h => hn.ne' (by rw [← h2]; exact norm_eq_zero.2 h)
  have hd : 0 < dot (vi - vp) (vi - vp) := by rw [← norm_sq]; positivity
  obtain ⟨m1, m2⟩ := turnAngle_mem hmu hd hrp
  refine ⟨turnAngle rp (dot (vi - vp) (vi - vp)) mu - turnAngle rs (dot (vi - vp) (vi - vp)) mu, ?_, ?_⟩
  · unfold fbCon
    rw [fbIneq_run hmu hrs hi ho]
    have e1 : dot (vi - vp) (vo' - vp) / (norm (vi - vp) * norm (vo' - vp))
        = cos (turnAngle rp (dot (vi - vp) (vi - vp)) mu) := by
      rw [dot_comm, h3, h2, norm_sq]
      rw [show 2 * arcsin (1 / (1 + rp * dot (vi - vp) (vi - vp) / mu)) = turnAngle rp (dot (vi - vp) (vi - vp)) mu from rfl]
      rw [norm_mul_self]
      field_simp
    rw [e1, arccos_cos m1.le m2.le]
    have e2 : dot (vi - vp) (vi - vp) - dot (vo' - vp) (vo' - vp) = 0 := by
      rw [← norm_sq, ← norm_sq, h2]; ring
    exact Prod.ext e2 rfl
  · rw [sub_nonpos]
    exact turnAngle_le_iff hmu hd hrp hrs

end Kep3
