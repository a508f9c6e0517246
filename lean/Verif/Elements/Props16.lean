import Verif.Elements.Frame

/-!
# C16, C17: Keplerian elements
-/

namespace Kep3
open Real V3

/-- The angle computed with `acos` and a flip has the prescribed cosine and sine. -/
theorem acosFlip_spec {c s : ℝ} {flip : Prop} [Decidable flip] (h : c ^ 2 + s ^ 2 = 1) (hf : flip ↔ s < 0) :
    ∃ x, acosFlip c flip = some x ∧ cos x = c ∧ sin x = s ∧ 0 ≤ x ∧ x < 2 * π := by
  have hc : -1 ≤ c ∧ c ≤ 1 := by constructor <;> nlinarith [sq_nonneg s]
  have hs : √(1 - c ^ 2) = |s| := by rw [← sqrt_sq_eq_abs]; congr 1; linarith
  unfold acosFlip
  rw [acos?_ok hc]
  refine ⟨_, rfl, ?_⟩
  have a1 := arccos_nonneg c
  have a2 := arccos_le_pi c
  by_cases hflip : flip
  · rw [if_pos hflip]
    have hneg := hf.1 hflip
    refine ⟨by rw [cos_two_pi_sub, cos_arccos hc.1 hc.2], by rw [sin_two_pi_sub, sin_arccos, hs, abs_of_neg hneg, neg_neg],
      by linarith [pi_pos], ?_⟩
    have : arccos c ≠ 0 := by
      intro h0
      have := sin_arccos c
      rw [h0, sin_zero, hs, abs_of_neg hneg] at this
      linarith
    have : 0 < arccos c := lt_of_le_of_ne a1 (Ne.symm this)
    linarith
  · rw [if_neg hflip]
    have hpos : 0 ≤ s := not_lt.1 (fun h => hflip (hf.2 h))
    exact ⟨cos_arccos hc.1 hc.2, by rw [sin_arccos, hs, abs_of_nonneg hpos], a1, by linarith [pi_pos]⟩

/-- The line of nodes is defined: neither degenerate nor equatorial. -/
theorem node_ne {x : RV ℝ} (h : (angMom x).x ≠ 0 ∨ (angMom x).y ≠ 0) : cross kHat (angMom x) ≠ 0 := by
  intro h0
  have h1 := congrArg V3.x h0
  have h2 := congrArg V3.y h0
  simp [kHat] at h1 h2
  rcases h with h | h
  · exact h h2
  · exact h h1

/-- All the quantities computed by `ic2par`. -/
theorem ic2par_spec (x : RV ℝ) {mu : ℝ} (hmu : 0 < mu) (hn : (angMom x).x ≠ 0 ∨ (angMom x).y ≠ 0)
    (he : eccVec x mu ≠ 0) (hE : energy x mu ≠ 0) : ∃ q, ic2par x mu = some q ∧
      q.e = norm (eccVec x mu) ∧ q.a * (1 - q.e * q.e) = dot (angMom x) (angMom x) / mu ∧
      colP q.i q.Om q.om = (1 / q.e) • eccVec x mu ∧
      colQ q.i q.Om q.om = cross ((1 / norm (angMom x)) • angMom x) ((1 / q.e) • eccVec x mu) ∧
      cos q.f = dot x.r ((1 / q.e) • eccVec x mu) / norm x.r ∧
      sin q.f = dot x.r (cross ((1 / norm (angMom x)) • angMom x) ((1 / q.e) • eccVec x mu)) / norm x.r ∧
      0 ≤ q.i ∧ q.i ≤ π ∧ 0 ≤ q.Om ∧ q.Om < 2 * π ∧ 0 ≤ q.om ∧ q.om < 2 * π ∧ 0 ≤ q.f ∧ q.f < 2 * π := by
  have hN := norm_pos (node_ne hn)
  have hh0 : angMom x ≠ 0 := by
    intro h0; rw [h0] at hn; simp at hn
  have hr0 := r_ne_of_h hh0
  have hR := norm_pos hr0
  have hH := norm_pos hh0
  have hEc := norm_pos he
  have hHs := norm_mul_self (angMom x)
  have hEs := norm_mul_self (eccVec x mu)
  have hRs := norm_mul_self x.r
  have hNs := norm_mul_self (cross kHat (angMom x))
  have hperp := eccVec_perp (x := x) (mu := mu)
  have hsq := eccVec_sq hr0 hmu.ne'
  have hcr := cross_h_ecc_r (x := x) (mu := mu)
  have hrh : dot x.r (angMom x) = 0 := dot_cross_self_left _ _
  set h := angMom x with hh
  set ev := eccVec x mu with hev
  set N := norm (cross kHat h) with hNd
  set H := norm h with hHd
  set e := norm ev with hed
  set R := norm x.r with hRd
  -- unit vectors
  obtain ⟨n, hnd⟩ : ∃ v : V3 ℝ, v = (1 / N) • cross kHat h := ⟨_, rfl⟩
  obtain ⟨W, hW⟩ : ∃ v : V3 ℝ, v = (1 / H) • h := ⟨_, rfl⟩
  obtain ⟨P, hP⟩ : ∃ v : V3 ℝ, v = (1 / e) • ev := ⟨_, rfl⟩
  have nx : n.x = -h.y / N := by simp [hnd, kHat]; ring
  have ny : n.y = h.x / N := by simp [hnd, kHat]; ring
  have nz : n.z = 0 := by simp [hnd, kHat]
  have hNs' : N * N = h.x ^ 2 + h.y ^ 2 := by rw [hNs]; simp [dot, kHat]; ring
  have hnn : dot n n = 1 := by
    unfold dot; rw [nx, ny, nz]; field_simp; rw [pow_two N, hNs']; ring
  have hWW : dot W W = 1 := by
    rw [hW, smul_dot, dot_smul, ← hHs]; field_simp
  have hPP : dot P P = 1 := by
    rw [hP, smul_dot, dot_smul, ← hEs]; field_simp
  have hnW : dot n W = 0 := by
    unfold dot; rw [nx, ny, nz, hW]; simp only [smul_x, smul_y, smul_z]; ring
  have hPW : dot P W = 0 := by
    rw [hP, hW, smul_dot, dot_smul, hperp]; ring
  -- the inclination
  have hz2 : h.z ^ 2 + N ^ 2 = H ^ 2 := by
    rw [pow_two H, hHs, pow_two N, hNs']; unfold dot; ring
  have hci : (h.z / H) ^ 2 + (N / H) ^ 2 = 1 := by
    rw [div_pow, div_pow, ← add_div, hz2, div_self]; exact pow_ne_zero 2 hH.ne'
  have hci1 : -1 ≤ h.z / H ∧ h.z / H ≤ 1 := by constructor <;> nlinarith [sq_nonneg (N / H)]
  have hsini : sin (arccos (h.z / H)) = N / H := by
    rw [sin_arccos, show 1 - (h.z / H) ^ 2 = (N / H) ^ 2 by linarith, sqrt_sq (by positivity)]
  have hcosi : cos (arccos (h.z / H)) = h.z / H := cos_arccos hci1.1 hci1.2
  -- the node
  obtain ⟨Om, hOm, cOm, sOm, Om0, Om1⟩ := acosFlip_spec (c := n.x) (s := n.y) (flip := n.y < 0)
    (by have := hnn; unfold dot at this; rw [nz] at this; linarith) Iff.rfl
  obtain ⟨m, hm⟩ : ∃ v, v = cross W n := ⟨_, rfl⟩
  have mm : dot m m = 1 := by rw [hm, lagrange, hWW, hnn, V3.dot_comm, hnW]; ring
  have mz : m.z = N / H := by
    rw [hm, cross_z, nx, ny, hW]; simp only [smul_x, smul_y]
    rw [show 1 / H * h.x * (h.x / N) - 1 / H * h.y * (-h.y / N) = (h.x ^ 2 + h.y ^ 2) / (H * N) by field_simp; ring,
      ← hNs']
    field_simp
  have mW : dot m W = 0 := by rw [hm]; exact cross_dot_self_left _ _
  have mn : dot m n = 0 := by rw [hm]; exact cross_dot_self_right _ _
  -- the pericentre
  obtain ⟨co, hco⟩ : ∃ v, v = dot P n := ⟨_, rfl⟩
  obtain ⟨so, hso⟩ : ∃ v, v = dot P m := ⟨_, rfl⟩
  have hPexp : P = co • n + so • m := by
    refine eq_of_frame hnn hWW hnW ?_ ?_ ?_
    · rw [add_dot, smul_dot, smul_dot, hnn, mn, hco]; ring
    · rw [add_dot, smul_dot, smul_dot, ← hm, mm, V3.dot_comm n m, mn, hso]; ring
    · rw [add_dot, smul_dot, smul_dot, hnW, mW, hPW]; ring
  have hcs : co ^ 2 + so ^ 2 = 1 := by
    have k := hPP
    rw [hPexp, add_dot, dot_add, dot_add] at k
    simp only [smul_dot, dot_smul] at k
    rw [hnn, mm, mn, V3.dot_comm n m, mn] at k
    linarith
  have hPz : P.z = so * (N / H) := by
    have := congrArg V3.z hPexp
    rw [add_z, smul_z, smul_z, nz, mz] at this; linarith
  have hevz : ev.z = e * (so * (N / H)) := by
    rw [← hPz, hP, smul_z]; field_simp
  have hflipw : ev.z < 0 ↔ so < 0 := by
    rw [hevz, show e * (so * (N / H)) = (e * (N / H)) * so by ring]
    have hp : 0 < e * (N / H) := by positivity
    exact ⟨fun h => by by_contra h'; exact absurd h (not_lt.2 (mul_nonneg hp.le (not_lt.1 h'))),
      fun h => mul_neg_of_pos_of_neg hp h⟩
  obtain ⟨om, hom, com, som, om0, om1⟩ := acosFlip_spec (c := co) (s := so) (flip := ev.z < 0) hcs hflipw
  have hco' : dot n ev / e = co := by
    rw [hco, hP, smul_dot, V3.dot_comm]; ring
  -- the true anomaly
  obtain ⟨Q, hQ⟩ : ∃ v, v = cross W P := ⟨_, rfl⟩
  have QQ : dot Q Q = 1 := by rw [hQ, lagrange, hWW, hPP, V3.dot_comm, hPW]; ring
  have QP : dot Q P = 0 := by rw [hQ]; exact cross_dot_self_right _ _
  have QW : dot Q W = 0 := by rw [hQ]; exact cross_dot_self_left _ _
  have hrexp : x.r = dot x.r P • P + dot x.r Q • Q := by
    refine eq_of_frame hPP hWW hPW ?_ ?_ ?_
    · rw [add_dot, smul_dot, smul_dot, hPP, QP]; ring
    · rw [add_dot, smul_dot, smul_dot, ← hQ, QQ, V3.dot_comm P Q, QP]; ring
    · rw [add_dot, smul_dot, smul_dot, hPW, QW]; simp only [hW, dot_smul, hrh]; ring
  have hRR : dot x.r P ^ 2 + dot x.r Q ^ 2 = R ^ 2 := by
    have k : dot x.r x.r = dot (dot x.r P • P + dot x.r Q • Q) (dot x.r P • P + dot x.r Q • Q) := by rw [← hrexp]
    rw [add_dot, dot_add, dot_add] at k
    simp only [smul_dot, dot_smul] at k
    rw [hPP, QQ, QP, V3.dot_comm P Q, QP] at k
    rw [pow_two R, hRs]; linarith
  have hQr : dot x.r Q = H / (e * mu) * dot x.r x.v := by
    have : dot x.r Q = 1 / (H * e) * dot (cross h ev) x.r := by
      rw [hQ, hW, hP]; simp [dot]; ring
    rw [this, hcr, ← hHs]; field_simp
  have hflipf : dot x.r x.v < 0 ↔ dot x.r Q / R < 0 := by
    have hp : 0 < H / (e * mu) / R := by positivity
    rw [hQr, show H / (e * mu) * dot x.r x.v / R = (H / (e * mu) / R) * dot x.r x.v by ring]
    exact ⟨fun h => mul_neg_of_pos_of_neg hp h,
      fun h => by by_contra h'; exact absurd h (not_lt.2 (mul_nonneg hp.le (not_lt.1 h')))⟩
  obtain ⟨f, hf, cf, sf, f0, f1⟩ := acosFlip_spec (c := dot x.r P / R) (s := dot x.r Q / R)
    (flip := dot x.r x.v < 0) (by rw [div_pow, div_pow, ← add_div, hRR, div_self]; exact pow_ne_zero 2 hR.ne') hflipf
  have hcf' : dot ev x.r / e / R = dot x.r P / R := by
    rw [hP, dot_smul, V3.dot_comm ev]; ring
  have h1e : 1 - e * e ≠ 0 := by
    rw [hEs, hsq]
    have : dot h h ≠ 0 := by rw [← hHs]; positivity
    intro h0
    have : energy x mu * dot h h = 0 := by
      have : 2 * energy x mu * dot h h / mu ^ 2 = 0 := by linarith
      have hm2 : mu ^ 2 ≠ 0 := pow_ne_zero 2 hmu.ne'
      field_simp at this
      linarith
    rcases mul_eq_zero.1 this with h | h <;> contradiction
  -- put together
  have hrun : ic2par x mu = some ⟨dot h h / mu / (1 - e * e), e, arccos (h.z / H), Om, om, f⟩ := by
    unfold ic2par
    have hvh : vdiv? (cross x.v h) mu = some ((1 / mu) • cross x.v h) := by
      rw [vdiv?_ok hmu.ne', smul_one_div]
    have hru : vdiv? x.r R = some ((1 / R) • x.r) := by
      rw [vdiv?_ok hR.ne', smul_one_div]
    have hnv : vdiv? (cross kHat h) N = some n := by
      rw [vdiv?_ok hN.ne', smul_one_div, hnd]
    have hevd : (1 / mu) • cross x.v h - (1 / R) • x.r = ev := rfl
    simp only [show cross x.r x.v = h from rfl, ← hNd, ← hRd, ← hHd]
    rw [div?_ok hmu.ne', hnv, hvh, hru]
    simp only [Option.bind_eq_bind, Option.bind_some, hevd, ← hed]
    rw [div?_ok h1e]
    simp only [Option.bind_some]
    rw [div?_ok hH.ne']
    simp only [Option.bind_some]
    rw [acos?_ok hci1]
    simp only [Option.bind_some]
    rw [div?_ok hEc.ne', hco']
    simp only [Option.bind_some]
    rw [hom]
    simp only [Option.bind_some]
    rw [hOm]
    simp only [Option.bind_some]
    rw [div?_ok hEc.ne']
    simp only [Option.bind_some]
    rw [div?_ok hR.ne', hcf']
    simp only [Option.bind_some]
    rw [hf]
    rfl
  have hWz : W.z = h.z / H := by rw [hW, smul_z]; ring
  have mx : m.x = -sin Om * (h.z / H) := by rw [hm, cross_x, nz, ← sOm, hWz]; ring
  have my : m.y = cos Om * (h.z / H) := by rw [hm, cross_y, nz, ← cOm, hWz]; ring
  have hQexp : Q = co • m - so • n := by
    have : Q = cross W (co • n + so • m) := by rw [hQ]; congr 1
    have k1 : cross W (co • n + so • m) = co • cross W n + so • cross W m := by ext <;> simp <;> ring
    have k2 : cross W m = dot W n • W - dot W W • n := by rw [hm]; ext <;> simp [dot] <;> ring
    rw [this, k1, k2, V3.dot_comm W n, hnW, hWW, ← hm]
    ext <;> simp <;> ring
  refine ⟨_, hrun, rfl, ?_, ?_, ?_, ?_, ?_, arccos_nonneg _, arccos_le_pi _, Om0, Om1, om0, om1, f0, f1⟩
  · exact div_mul_cancel₀ _ h1e
  · show colP _ _ _ = (1 / e) • ev
    rw [← hP, hPexp]
    ext
    · simp only [colP, add_x, smul_x, hcosi, com, som, mx, ← cOm]; ring
    · simp only [colP, add_y, smul_y, hcosi, com, som, my, ← sOm]; ring
    · simp only [colP, add_z, smul_z, hsini, som, nz, mz]; ring
  · show colQ _ _ _ = cross ((1 / H) • h) ((1 / e) • ev)
    rw [← hP, ← hW, ← hQ, hQexp]
    ext
    · simp only [colQ, sub_x, smul_x, hcosi, com, som, mx, ← cOm]; ring
    · simp only [colQ, sub_y, smul_y, hcosi, com, som, my, ← sOm]; ring
    · simp only [colQ, sub_z, smul_z, hsini, com, nz, mz]; ring
  · show cos f = dot x.r ((1 / e) • ev) / R
    rw [← hP, cf]
  · show sin f = dot x.r (cross ((1 / H) • h) ((1 / e) • ev)) / R
    rw [← hP, ← hW, ← hQ, sf]

/-- The third axis of the perifocal frame, src/core_astro/ic2par2ic.cpp:144-147 (third column of the matrix). -/
noncomputable def colW (i Om : ℝ) : V3 ℝ := ⟨sin Om * sin i, -cos Om * sin i, cos i⟩

section
variable (i Om om : ℝ)

theorem colP_sq : dot (colP i Om om) (colP i Om om) = 1 := by
  have h1 := sin_sq_add_cos_sq i
  have h2 := sin_sq_add_cos_sq Om
  have h3 := sin_sq_add_cos_sq om
  simp only [dot, colP]
  linear_combination (sin om ^ 2 * cos i ^ 2 + cos om ^ 2) * h2 + sin om ^ 2 * h1 + h3

theorem colQ_sq : dot (colQ i Om om) (colQ i Om om) = 1 := by
  have h1 := sin_sq_add_cos_sq i
  have h2 := sin_sq_add_cos_sq Om
  have h3 := sin_sq_add_cos_sq om
  simp only [dot, colQ]
  linear_combination (cos om ^ 2 * cos i ^ 2 + sin om ^ 2) * h2 + cos om ^ 2 * h1 + h3

theorem colPQ : dot (colP i Om om) (colQ i Om om) = 0 := by
  have h1 := sin_sq_add_cos_sq i
  have h2 := sin_sq_add_cos_sq Om
  simp only [dot, colP, colQ]
  linear_combination (sin om * cos om * cos i ^ 2 - sin om * cos om) * h2 + sin om * cos om * h1

theorem cross_colPQ : cross (colP i Om om) (colQ i Om om) = colW i Om := by
  have h2 := sin_sq_add_cos_sq Om
  have h3 := sin_sq_add_cos_sq om
  ext
  · simp only [cross_x, colP, colQ, colW]; linear_combination (sin Om * sin i) * h3
  · simp only [cross_y, colP, colQ, colW]; linear_combination (-cos Om * sin i) * h3
  · simp only [cross_z, colP, colQ, colW]
    linear_combination (cos i) * h3 + (cos i * (sin om ^ 2 + cos om ^ 2)) * h2

theorem colW_sq : dot (colW i Om) (colW i Om) = 1 := by
  rw [← cross_colPQ i Om 0, lagrange, colP_sq, colQ_sq, colPQ]; ring
end

/-- Semi-latus rectum. -/
def Par.slr (q : Par) : ℝ := q.a * (1 - q.e * q.e)

/-- Elements of an ellipse or of a hyperbola inside its asymptotes. -/
structure Par.Good (q : Par) : Prop where
  e_nonneg : 0 ≤ q.e
  ae : 0 < q.a * (1 - q.e)
  den : 0 < 1 + q.e * cos q.f

theorem Par.Good.slr_pos {q : Par} (h : q.Good) : 0 < q.slr := by
  have : q.slr = q.a * (1 - q.e) * (1 + q.e) := by unfold Par.slr; ring
  rw [this]
  exact mul_pos h.ae (by linarith [h.e_nonneg])

theorem not_beyond {e c : ℝ} (h : 0 ≤ 1 + e * c) : ¬ (1 < e ∧ c < -1 / e) := by
  rintro ⟨h1, h2⟩
  rw [lt_div_iff₀ (by linarith)] at h2
  linarith

/-- The state `par2ic` returns. -/
noncomputable def parState (q : Par) (mu : ℝ) : RV ℝ :=
  let P := colP q.i q.Om q.om
  let Q := colQ q.i q.Om q.om
  let r := q.slr / (1 + q.e * cos q.f)
  let mh := mu / √(q.slr * mu)
  ⟨(r * cos q.f) • P + (r * sin q.f) • Q, (-mh * sin q.f) • P + (mh * (q.e + cos q.f)) • Q⟩

theorem par2ic_run {q : Par} (hq : q.Good) {mu : ℝ} (hmu : 0 < mu) :
    par2ic q mu = .ok (some (parState q mu)) := by
  have hp := hq.slr_pos
  have hs : √(q.slr * mu) ≠ 0 := (sqrt_pos.2 (mul_pos hp hmu)).ne'
  unfold par2ic
  rw [if_neg hq.ae.not_gt]
  simp only []
  rw [if_neg (not_beyond hq.den.le)]
  rw [div?_ok hq.den.ne', sqrt?_ok (by show 0 ≤ q.slr * mu; positivity)]
  simp only [Option.bind_eq_bind, Option.bind_some]
  rw [show div? mu √(q.a * (1 - q.e * q.e) * mu) = _ from div?_ok hs]
  simp only [Option.bind_some]
  refine congrArg Res.ok (congrArg some ?_)
  unfold parState Par.slr
  ext <;> simp <;> ring

/-- **C16**: state to elements and back. Hypotheses: the orbit plane is not the reference plane (which includes
a non-zero angular momentum), the orbit is neither circular nor parabolic. -/
theorem C16_round_trip (x : RV ℝ) {mu : ℝ} (hmu : 0 < mu) (hn : (cross x.r x.v).x ≠ 0 ∨ (cross x.r x.v).y ≠ 0)
    (he : (1 / mu) • cross x.v (cross x.r x.v) - (1 / norm x.r) • x.r ≠ 0)
    (hE : dot x.v x.v / 2 - mu / norm x.r ≠ 0) :
    ∃ q, ic2par x mu = some q ∧ par2ic q mu = .ok (some x) ∧
      0 ≤ q.i ∧ q.i ≤ π ∧ 0 ≤ q.Om ∧ q.Om < 2 * π ∧ 0 ≤ q.om ∧ q.om < 2 * π ∧ 0 ≤ q.f ∧ q.f < 2 * π := by
  obtain ⟨q, hq, qe, qa, qP, qQ, qc, qs, ranges⟩ := ic2par_spec x hmu hn he hE
  refine ⟨q, hq, ?_, ranges⟩
  have hh0 : angMom x ≠ 0 := by
    intro h0
    change (angMom x).x ≠ 0 ∨ (angMom x).y ≠ 0 at hn
    rw [h0] at hn; simp at hn
  have hr0 := r_ne_of_h hh0
  have hR := norm_pos hr0
  have hH := norm_pos hh0
  have hEc : 0 < q.e := by rw [qe]; exact norm_pos he
  have hHs := norm_mul_self (angMom x)
  have hEs := norm_mul_self (eccVec x mu)
  have hper := eccVec_r (mu := mu) hr0
  have hslr : q.slr = dot (angMom x) (angMom x) / mu := qa
  have hslr0 : 0 < q.slr := by rw [hslr, ← hHs]; positivity
  have hden : norm x.r * (1 + q.e * cos q.f) = q.slr := by
    rw [qc, hslr, dot_smul, V3.dot_comm x.r, hper]; field_simp; ring
  have hden0 : 0 < 1 + q.e * cos q.f := by
    by_contra h
    have := mul_nonpos_of_nonneg_of_nonpos hR.le (not_lt.1 h)
    linarith
  have hgood : q.Good := ⟨hEc.le, by
    have : q.slr = q.a * (1 - q.e) * (1 + q.e) := by unfold Par.slr; ring
    by_contra h
    have := mul_nonpos_of_nonpos_of_nonneg (not_lt.1 h) (by linarith : 0 ≤ 1 + q.e)
    linarith, hden0⟩
  rw [par2ic_run hgood hmu]
  refine congrArg Res.ok (congrArg some ?_)
  have hsq : √(q.slr * mu) = norm (angMom x) := by
    rw [hslr, div_mul_cancel₀ _ hmu.ne', ← hHs, sqrt_mul_self hH.le]
  have hrad : q.slr / (1 + q.e * cos q.f) = norm x.r := by
    rw [div_eq_iff hden0.ne', hden]
  unfold parState
  simp only [hsq, hrad]
  set P := colP q.i q.Om q.om with hP
  set Q := colQ q.i q.Om q.om with hQ
  set W := (1 / norm (angMom x)) • angMom x with hW
  have hPP : dot P P = 1 := colP_sq _ _ _
  have hQQ : dot Q Q = 1 := colQ_sq _ _ _
  have hPQ : dot P Q = 0 := colPQ _ _ _
  have hWW : dot W W = 1 := by
    rw [hW, smul_dot, dot_smul, ← hHs]; field_simp
  have hPW : dot P W = 0 := by
    rw [qP, hW, smul_dot, dot_smul, eccVec_perp]; ring
  have hQW : Q = cross W P := by rw [qQ, qP]
  rw [← qP] at qc qs
  rw [← hQW] at qs
  have hrW : dot x.r W = 0 := by
    rw [hW, dot_smul, show dot x.r (angMom x) = 0 from dot_cross_self_left _ _]; ring
  have hvW : dot x.v W = 0 := by
    rw [hW, dot_smul, show dot x.v (angMom x) = 0 from dot_cross_self_right _ _]; ring
  have rP : dot x.r P = norm x.r * cos q.f := by rw [qc]; field_simp
  have rQ : dot x.r Q = norm x.r * sin q.f := by rw [qs]; field_simp
  have hQ0 : dot Q W = 0 := by rw [hQW]; exact cross_dot_self_left _ _
  have hr : (norm x.r * cos q.f) • P + (norm x.r * sin q.f) • Q = x.r := by
    refine eq_of_frame hPP hWW hPW ?_ ?_ ?_
    · rw [add_dot, smul_dot, smul_dot, hPP, V3.dot_comm Q P, hPQ, rP]; ring
    · rw [← hQW, add_dot, smul_dot, smul_dot, hPQ, hQQ, rQ]; ring
    · rw [add_dot, smul_dot, smul_dot, hPW, hQ0, hrW]; ring
  have hev : eccVec x mu = q.e • P := by
    rw [qP]; ext <;> simp <;> field_simp
  have hhW : angMom x = norm (angMom x) • W := by
    rw [hW]; ext <;> simp <;> field_simp
  -- the velocity
  have hv := cross_h_ecc (x := x) (mu := mu)
  set H := norm (angMom x) with hHd
  set R := norm x.r with hRd
  have hv' : x.v = (mu / H) • (q.e • Q + (1 / R) • cross W x.r) := by
    rw [hev, ← hHs] at hv
    have e1 : cross (angMom x) (q.e • P) = (H * q.e) • Q := by
      rw [hQW]; nth_rewrite 1 [hhW]; ext <;> simp <;> ring
    have e2 : cross (angMom x) x.r = H • cross W x.r := by
      nth_rewrite 1 [hhW]; ext <;> simp <;> ring
    rw [e1, e2] at hv
    ext
    · have := congrArg V3.x hv
      simp only [smul_x, sub_x, add_x] at this ⊢
      field_simp at this ⊢
      linear_combination (-1 : ℝ) * this
    · have := congrArg V3.y hv
      simp only [smul_y, sub_y, add_y] at this ⊢
      field_simp at this ⊢
      linear_combination (-1 : ℝ) * this
    · have := congrArg V3.z hv
      simp only [smul_z, sub_z, add_z] at this ⊢
      field_simp at this ⊢
      linear_combination (-1 : ℝ) * this
  have hWr : cross W x.r = (R * cos q.f) • Q - (R * sin q.f) • P := by
    have k2 : cross W Q = dot W P • W - dot W W • P := by rw [hQW]; ext <;> simp [dot] <;> ring
    rw [V3.dot_comm W P, hPW, hWW] at k2
    have k3 : cross W ((R * cos q.f) • P + (R * sin q.f) • Q)
        = (R * cos q.f) • cross W P + (R * sin q.f) • cross W Q := by ext <;> simp <;> ring
    rw [hr, k2, ← hQW] at k3
    rw [k3]; ext <;> simp <;> ring
  apply RV.ext
  · exact hr
  · show (-(mu / H) * sin q.f) • P + (mu / H * (q.e + cos q.f)) • Q = x.v
    rw [hv', hWr]
    ext
    · simp only [add_x, sub_x, smul_x]; field_simp; ring
    · simp only [add_y, sub_y, smul_y]; field_simp; ring
    · simp only [add_z, sub_z, smul_z]; field_simp; ring

/-- **C17**: what `par2ic` rejects. -/
theorem C17_rejects (q : Par) (mu : ℝ) : par2ic q mu = .err .domainError ↔
    q.a * (1 - q.e) < 0 ∨ (1 < q.e ∧ 1 + q.e * cos q.f < 0) := by
  have key : 1 < q.e → (cos q.f < -1 / q.e ↔ 1 + q.e * cos q.f < 0) := by
    intro h
    rw [lt_div_iff₀ (by linarith)]
    constructor <;> intro <;> linarith
  unfold par2ic
  by_cases h1 : q.a * (1 - q.e) < 0
  · simp [h1]
  · rw [if_neg h1]
    simp only []
    by_cases h2 : 1 < q.e ∧ cos q.f < -1 / q.e
    · rw [if_pos h2]; simp [h2.1, (key h2.1).1 h2.2]
    · rw [if_neg h2]
      simp only [reduceCtorEq, false_iff, not_or]
      exact ⟨h1, fun h => h2 ⟨h.1, (key h.1).2 h.2⟩⟩

/-- **C17**: the state has the advertised orbit: plane, size, shape, pericentre direction and radius. -/
theorem C17_orbit (q : Par) {mu : ℝ} (hmu : 0 < mu) (he : 0 ≤ q.e) (hae : 0 < q.a * (1 - q.e))
    (hden : 0 < 1 + q.e * cos q.f) : ∃ x, par2ic q mu = .ok (some x) ∧
      dot x.v x.v / 2 - mu / norm x.r = -mu / (2 * q.a) ∧
      norm x.r = q.a * (1 - q.e ^ 2) / (1 + q.e * cos q.f) ∧
      cross x.r x.v = √(mu * (q.a * (1 - q.e ^ 2))) • ⟨sin q.Om * sin q.i, -cos q.Om * sin q.i, cos q.i⟩ ∧
      (1 / mu) • cross x.v (cross x.r x.v) - (1 / norm x.r) • x.r =
        q.e • ⟨cos q.Om * cos q.om - sin q.Om * sin q.om * cos q.i,
          sin q.Om * cos q.om + cos q.Om * sin q.om * cos q.i, sin q.om * sin q.i⟩ ∧
      dot x.r x.v = √(mu / (q.a * (1 - q.e ^ 2))) * norm x.r * q.e * sin q.f := by
  have hq : q.Good := ⟨he, hae, hden⟩
  refine ⟨_, par2ic_run hq hmu, ?_⟩
  have hp := hq.slr_pos
  have hps : q.a * (1 - q.e ^ 2) = q.slr := by unfold Par.slr; ring
  have ha : q.a ≠ 0 := by rintro h; rw [h] at hae; simp at hae
  rw [hps]
  have hs2 : √(q.slr * mu) ^ 2 = q.slr * mu := sq_sqrt (by positivity)
  have hs0 : 0 < √(q.slr * mu) := sqrt_pos.2 (by positivity)
  have hsd : √(mu / q.slr) = mu / √(q.slr * mu) := by
    rw [eq_div_iff hs0.ne', ← sqrt_mul (by positivity), show mu / q.slr * (q.slr * mu) = mu ^ 2 by field_simp,
      sqrt_sq hmu.le]
  set P := colP q.i q.Om q.om with hP
  set Q := colQ q.i q.Om q.om with hQ
  have hPP : dot P P = 1 := colP_sq _ _ _
  have hQQ : dot Q Q = 1 := colQ_sq _ _ _
  have hPQ : dot P Q = 0 := colPQ _ _ _
  have hW : cross P Q = colW q.i q.Om := cross_colPQ _ _ _
  have hcs := sin_sq_add_cos_sq q.f
  set r := q.slr / (1 + q.e * cos q.f) with hr
  have hr0 : 0 < r := by positivity
  set H := √(q.slr * mu) with hH
  have hrr : (parState q mu).r = (r * cos q.f) • P + (r * sin q.f) • Q := rfl
  have hvv : (parState q mu).v = (-(mu / H) * sin q.f) • P + (mu / H * (q.e + cos q.f)) • Q := rfl
  have dcomb : ∀ a b c d : ℝ, dot (a • P + b • Q) (c • P + d • Q) = a * c + b * d := by
    intro a b c d
    simp only [add_dot, dot_add, smul_dot, dot_smul, hPP, hQQ, hPQ, V3.dot_comm Q P]
    ring
  have ccomb : ∀ a b c d : ℝ, cross (a • P + b • Q) (c • P + d • Q) = (a * d - b * c) • cross P Q := by
    intro a b c d; ext <;> simp <;> ring
  have hnr : norm (parState q mu).r = r := by
    unfold V3.norm
    rw [hrr, dcomb, show r * cos q.f * (r * cos q.f) + r * sin q.f * (r * sin q.f) = r ^ 2 by
      linear_combination r ^ 2 * hcs, sqrt_sq hr0.le]
  have hcr : cross (parState q mu).r (parState q mu).v = H • cross P Q := by
    rw [hrr, hvv, ccomb]
    congr 1
    have e : r * (1 + q.e * cos q.f) = q.slr := div_mul_cancel₀ _ hden.ne'
    have : r * cos q.f * (mu / H * (q.e + cos q.f)) - r * sin q.f * (-(mu / H) * sin q.f)
        = mu / H * (r * (1 + q.e * cos q.f)) := by linear_combination r * (mu / H) * hcs
    rw [this, e]
    field_simp
    linarith [hs2]
  rw [hnr, hcr]
  refine ⟨?_, rfl, ?_, ?_, ?_⟩
  · rw [hvv, dcomb]
    have : -(mu / H) * sin q.f * (-(mu / H) * sin q.f) + mu / H * (q.e + cos q.f) * (mu / H * (q.e + cos q.f))
        = mu / q.slr * (1 + 2 * q.e * cos q.f + q.e ^ 2) := by
      have : (mu / H) ^ 2 = mu / q.slr := by rw [div_pow, hs2]; field_simp
      linear_combination (1 + 2 * q.e * cos q.f + q.e ^ 2) * this + (mu / H) ^ 2 * hcs
    rw [this, hr]
    have h1 : q.slr = q.a * (1 - q.e ^ 2) := hps.symm
    have h2 : (1 - q.e ^ 2) ≠ 0 := by
      intro h0; rw [h0, mul_zero] at h1; rw [h1] at hp; exact lt_irrefl _ hp
    rw [h1]
    field_simp
    ring
  · rw [hW, mul_comm mu]; rfl
  · have e3 : cross (parState q mu).v (H • cross P Q) =
        (mu * (q.e + cos q.f)) • P + (mu * sin q.f) • Q := by
      have k1 : cross P (cross P Q) = dot P Q • P - dot P P • Q := by ext <;> simp [dot] <;> ring
      have k2 : cross Q (cross P Q) = dot Q Q • P - dot P Q • Q := by ext <;> simp [dot] <;> ring
      have k : cross (parState q mu).v (H • cross P Q) = (H * (-(mu / H) * sin q.f)) • cross P (cross P Q)
          + (H * (mu / H * (q.e + cos q.f))) • cross Q (cross P Q) := by
        rw [hvv]; generalize cross P Q = w; ext <;> simp <;> ring
      rw [k, k1, k2, hPQ, hPP, hQQ]
      ext
      · simp only [add_x, sub_x, smul_x]; field_simp; ring
      · simp only [add_y, sub_y, smul_y]; field_simp; ring
      · simp only [add_z, sub_z, smul_z]; field_simp; ring
    rw [e3, hrr]
    show _ = q.e • P
    ext
    · simp only [add_x, sub_x, smul_x]; field_simp; ring
    · simp only [add_y, sub_y, smul_y]; field_simp; ring
    · simp only [add_z, sub_z, smul_z]; field_simp; ring
  · rw [hrr, hvv, dcomb, hsd]; ring

/-- **C17**: the limits of the two checks. A parabola (or `a = 0`) and the asymptote itself are not rejected, and
no number comes out. -/
theorem C17_boundary_no_number (q : Par) {mu : ℝ}
    (h : q.a * (1 - q.e) = 0 ∨ (1 < q.e ∧ q.a * (1 - q.e) > 0 ∧ 1 + q.e * cos q.f = 0))
    (hd : 0 ≤ 1 + q.e * cos q.f) : par2ic q mu = .ok none := by
  unfold par2ic
  rw [if_neg (by rcases h with h | h <;> linarith)]
  simp only []
  rw [if_neg (not_beyond hd)]
  refine congrArg Res.ok ?_
  rcases h with h | h
  · have hp : q.a * (1 - q.e * q.e) = 0 := by
      have : q.a * (1 - q.e * q.e) = q.a * (1 - q.e) * (1 + q.e) := by ring
      rw [this, h, zero_mul]
    rw [hp]
    unfold div?
    split
    · rfl
    · simp [sqrt?]
  · rw [div?, if_pos h.2.2]; rfl

/-- An inclined ellipse. -/
example : ∃ x, par2ic ⟨2, 1 / 2, 1, 1, 1, 1⟩ 1 = .ok (some x) :=
  let ⟨x, h, _⟩ := C17_orbit ⟨2, 1 / 2, 1, 1, 1, 1⟩ one_pos (by norm_num) (by norm_num)
    (by show (0 : ℝ) < 1 + 1 / 2 * cos 1; linarith [neg_one_le_cos (1 : ℝ)])
  ⟨x, h⟩

/-- A state meeting the hypotheses of the round trip: polar, elliptic. -/
example : ∃ q, ic2par ⟨⟨1, 0, 0⟩, ⟨0, 0, 1 / 2⟩⟩ 1 = some q ∧ par2ic q 1 = .ok (some ⟨⟨1, 0, 0⟩, ⟨0, 0, 1 / 2⟩⟩) := by
  have hn : V3.norm ⟨1, 0, 0⟩ = 1 := by simp [V3.norm, dot]
  obtain ⟨q, h1, h2, _⟩ := C16_round_trip ⟨⟨1, 0, 0⟩, ⟨0, 0, 1 / 2⟩⟩ one_pos (by right; simp)
    (by rw [hn]; intro h; have := congrArg V3.x h; norm_num at this)
    (by rw [hn]; norm_num [dot])
  exact ⟨q, h1, h2⟩

end Kep3
