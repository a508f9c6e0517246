import Verif.Lambert.Geometry
import Verif.Lagr.Universal

/-!
# The two terminal velocities belong to one orbit
-/

namespace Kep3
open Real V3

namespace Lambert

/-- The variable `y` of the iteration variable. -/
noncomputable def yOf (l x : ℝ) : ℝ := √(1 - l ^ 2 + l ^ 2 * x ^ 2)

theorem yOf_arg {l : ℝ} (hl : l ^ 2 < 1) (x : ℝ) : 0 < 1 - l ^ 2 + l ^ 2 * x ^ 2 := by
  have : 0 ≤ l ^ 2 * x ^ 2 := by positivity
  linarith

theorem yOf_pos {l : ℝ} (hl : l ^ 2 < 1) (x : ℝ) : 0 < yOf l x := sqrt_pos.2 (yOf_arg hl x)

theorem yOf_sq {l : ℝ} (hl : l ^ 2 < 1) (x : ℝ) : yOf l x ^ 2 = 1 - l ^ 2 + l ^ 2 * x ^ 2 :=
  sq_sqrt (yOf_arg hl x).le

/-- `y + l x` and `y - l x` are positive. -/
theorem yOf_abs {l : ℝ} (hl : l ^ 2 < 1) (x : ℝ) : |l * x| < yOf l x := by
  apply abs_lt_of_sq_lt_sq _ (yOf_pos hl x).le
  rw [yOf_sq hl]; nlinarith
theorem yOf_add {l : ℝ} (hl : l ^ 2 < 1) (x : ℝ) : 0 < yOf l x + l * x := by
  have := (abs_lt.1 (yOf_abs hl x)).1; linarith
theorem yOf_sub {l : ℝ} (hl : l ^ 2 < 1) (x : ℝ) : 0 < yOf l x - l * x := by
  have := (abs_lt.1 (yOf_abs hl x)).2; linarith

section
variable {r0 r1 : V3 ℝ} {cw : Bool} {g : Geom} {f : Frame} {ct st rho sg mu : ℝ}

/-- The velocities in the two local frames. -/
theorem velocities_ok (S : Spec r0 r1 cw g f ct st rho sg) (hmu : 0 < mu) (x : ℝ) :
    velocities g mu x = some
      ((√(mu * g.s / 2) * ((g.lam * yOf g.lam x - x) - rho * (g.lam * yOf g.lam x + x)) / g.Rs) • f.irs
        + (√(mu * g.s / 2) * sg * (yOf g.lam x + g.lam * x) / g.Rs) • f.its,
       (-√(mu * g.s / 2) * ((g.lam * yOf g.lam x - x) + rho * (g.lam * yOf g.lam x + x)) / g.Rf) • f.irf
        + (√(mu * g.s / 2) * sg * (yOf g.lam x + g.lam * x) / g.Rf) • f.itf) := by
  have hy : 1 - g.lam * g.lam + g.lam * g.lam * x * x = 1 - g.lam ^ 2 + g.lam ^ 2 * x ^ 2 := by ring
  have hs : 0 ≤ 1 - rho * rho := by have := S.sg_sq; nlinarith [sq_nonneg sg]
  have hg : 0 ≤ mu * g.s / 2 := by have := S.s_pos; positivity
  unfold velocities
  rw [sqrt?_ok hg, div?_ok S.c_pos.ne', ← S.rho_eq]
  simp only [Option.bind_eq_bind, Option.bind_some]
  rw [sqrt?_ok hs, ← S.sg_eq]
  simp only [Option.bind_some]
  rw [hy, sqrt?_ok (yOf_arg S.lam_lt x).le]
  simp only [Option.bind_some, div?_ok S.Rs_pos.ne', div?_ok S.Rf_pos.ne', S.frame, Option.pure_def]
  rfl

/-- `W`, the normal of the plane of motion in the sense of the motion. -/
theorem Spec.cross_f (S : Spec r0 r1 cw g f ct st rho sg) : cross f.irf f.itf = cross f.irs f.its := by
  rw [S.irf_eq, S.itf_eq]
  have := S.unit
  ext
  · simp; linear_combination (f.irs.y * f.its.z - f.irs.z * f.its.y) * this
  · simp; linear_combination (f.irs.z * f.its.x - f.irs.x * f.its.z) * this
  · simp; linear_combination (f.irs.x * f.its.y - f.irs.y * f.its.x) * this

theorem Spec.ff (S : Spec r0 r1 cw g f ct st rho sg) : dot f.irf f.irf = 1 := by
  rw [S.irf_eq]
  simp only [add_dot, dot_add, smul_dot, dot_smul, dot_comm f.its f.irs, S.uu, S.ut, S.tt]
  linear_combination S.unit
theorem Spec.gg (S : Spec r0 r1 cw g f ct st rho sg) : dot f.itf f.itf = 1 := by
  rw [S.itf_eq]
  simp only [add_dot, dot_add, smul_dot, dot_smul, dot_comm f.its f.irs, S.uu, S.ut, S.tt]
  linear_combination S.unit
theorem Spec.fg (S : Spec r0 r1 cw g f ct st rho sg) : dot f.irf f.itf = 0 := by
  rw [S.irf_eq, S.itf_eq]
  simp only [add_dot, dot_add, smul_dot, dot_smul, dot_comm f.its f.irs, S.uu, S.ut, S.tt]
  ring

/-- The angular momentum of a velocity with components in a local frame. -/
theorem angMom_local {u t : V3 ℝ} (R a b : ℝ) :
    angMom ⟨R • u, a • u + b • t⟩ = (R * b) • cross u t := by
  unfold angMom; ext <;> simp <;> ring

theorem energy_local {u t : V3 ℝ} (uu : dot u u = 1) (tt : dot t t = 1) (ut : dot u t = 0) {R : ℝ} (hR : 0 < R)
    (a b mu : ℝ) : energy ⟨R • u, a • u + b • t⟩ mu = (a ^ 2 + b ^ 2) / 2 - mu / R := by
  have h1 : norm (R • u) = R := by
    unfold V3.norm; rw [smul_dot, dot_smul, uu, mul_one, sqrt_mul_self hR.le]
  unfold energy
  simp only [h1, add_dot, dot_add, smul_dot, dot_smul, dot_comm t u, uu, ut, tt]
  ring

theorem eccVec_local {u t : V3 ℝ} (uu : dot u u = 1) (tt : dot t t = 1) (ut : dot u t = 0) {R : ℝ} (hR : 0 < R)
    (a b mu : ℝ) : eccVec ⟨R • u, a • u + b • t⟩ mu = (R * b ^ 2 / mu - 1) • u - (R * a * b / mu) • t := by
  have h1 : norm (R • u) = R := by
    unfold V3.norm; rw [smul_dot, dot_smul, uu, mul_one, sqrt_mul_self hR.le]
  have h2 : cross (a • u + b • t) ((R * b) • cross u t) = (R * b * b) • u - (R * b * a) • t := by
    have e1 : cross u (cross u t) = dot u t • u - dot u u • t := by ext <;> simp [dot] <;> ring
    have e2 : cross t (cross u t) = dot t t • u - dot u t • t := by ext <;> simp [dot] <;> ring
    have e3 : cross (a • u + b • t) ((R * b) • cross u t) = (a * (R * b)) • cross u (cross u t) + (b * (R * b)) • cross t (cross u t) := by
      ext <;> simp <;> ring
    rw [e3, e1, e2, uu, tt, ut]
    ext <;> simp <;> ring
  have h3 : cross (R • u) (a • u + b • t) = (R * b) • cross u t := angMom_local R a b
  unfold eccVec
  simp only [h3, h1, h2]
  ext <;> simp <;> field_simp <;> ring

/-- The energy of both states, in the variables of the code. -/
theorem energy_core {R s l rho sg x y ga : ℝ} (hs : 0 < s) (hmu : 0 < mu) (hR : 0 < R) (hga : ga ^ 2 = mu * s / 2)
    (hsg : sg ^ 2 = 1 - rho ^ 2) (hy : y ^ 2 = 1 - l ^ 2 + l ^ 2 * x ^ 2)
    (hR0 : R = s / 2 * (1 + l ^ 2 + rho * (1 - l ^ 2))) :
    ((ga * ((l * y - x) - rho * (l * y + x)) / R) ^ 2 + (ga * sg * (y + l * x) / R) ^ 2) / 2 - mu / R
      = -(mu * (1 - x ^ 2) / s) := by
  have key : s / 4 * (((l * y - x) - rho * (l * y + x)) ^ 2 + sg ^ 2 * (y + l * x) ^ 2) - R
      + R ^ 2 * (1 - x ^ 2) / s = 0 := by
    rw [hR0]
    field_simp
    linear_combination 4 * s * ((1 + l ^ 2) - 2 * rho * l ^ 2 + rho ^ 2 * (l ^ 2 - 1)) * hy + 4 * s * (y + l * x) ^ 2 * hsg
  have e1 : (ga * ((l * y - x) - rho * (l * y + x)) / R) ^ 2 + (ga * sg * (y + l * x) / R) ^ 2
      = mu * s / 2 * (((l * y - x) - rho * (l * y + x)) ^ 2 + sg ^ 2 * (y + l * x) ^ 2) / R ^ 2 := by
    rw [← hga]; field_simp
  rw [e1]
  have e2 : mu * s / 2 * (((l * y - x) - rho * (l * y + x)) ^ 2 + sg ^ 2 * (y + l * x) ^ 2) / R ^ 2 / 2 - mu / R
      + mu * (1 - x ^ 2) / s = mu / R ^ 2 * (s / 4 * (((l * y - x) - rho * (l * y + x)) ^ 2 + sg ^ 2 * (y + l * x) ^ 2) - R
      + R ^ 2 * (1 - x ^ 2) / s) := by
    field_simp
    ring
  rw [key, mul_zero] at e2
  linarith

/-- The two components of the eccentricity vector at both ends. -/
theorem ecc_core {R0 R1 s l rho sg x y ct st : ℝ}
    (hsg : sg ^ 2 = 1 - rho ^ 2) (hy : y ^ 2 = 1 - l ^ 2 + l ^ 2 * x ^ 2)
    (hR0 : R0 = s / 2 * (1 + l ^ 2 + rho * (1 - l ^ 2))) (hR1 : R1 = s / 2 * (1 + l ^ 2 - rho * (1 - l ^ 2)))
    (hc : R0 * R1 * ct = 2 * s ^ 2 * l ^ 2 - R0 * R1) (hst : R0 * R1 * st = s ^ 2 * l * (1 - l ^ 2) * sg) :
    (s / 2 * (sg ^ 2 * (y + l * x) ^ 2) - R0) * R1 ^ 2
      = (s / 2 * (sg ^ 2 * (y + l * x) ^ 2) - R1) * (R0 * R1 * ct)
        - s / 2 * (sg * (y + l * x) * ((l * y - x) + rho * (l * y + x))) * (R0 * R1 * st) ∧
    -(s / 2 * (sg * (y + l * x) * ((l * y - x) - rho * (l * y + x)))) * R1 ^ 2
      = (s / 2 * (sg ^ 2 * (y + l * x) ^ 2) - R1) * (R0 * R1 * st)
        + s / 2 * (sg * (y + l * x) * ((l * y - x) + rho * (l * y + x))) * (R0 * R1 * ct) := by
  rw [hc, hst, hR0, hR1]
  constructor
  · linear_combination sg ^ 2 * (s ^ 3 / 4 * (1 + 2 * l ^ 2 * rho - l ^ 4 - l ^ 4 * rho - rho)) * hy
      + s ^ 3 / 4 * (1 + 2 * l ^ 2 * rho - l ^ 4 - l ^ 4 * rho - rho) * (1 - l ^ 2) * hsg
  · linear_combination sg * s ^ 3 * (-(y * l ^ 2 * x) + y * l ^ 4 * x - y ^ 2 * l / 2 + y ^ 2 * l ^ 3 / 2 - l ^ 3 * x ^ 2 / 2
        + l ^ 5 * x ^ 2 / 2) * hsg
      + sg * s ^ 3 * (l * rho / 2 - l * rho ^ 2 / 2 - l ^ 3 - l ^ 3 * rho / 2 + l ^ 3 * rho ^ 2 / 2
        + (1 - rho ^ 2) * (-l / 2 + l ^ 3 / 2)) * hy

/-- The states at both ends lie on one orbit: same energy, angular momentum and eccentricity vector. -/
theorem orbit (S : Spec r0 r1 cw g f ct st rho sg) (hmu : 0 < mu) (x : ℝ) :
    ∃ v0 v1, velocities g mu x = some (v0, v1) ∧
      energy ⟨r0, v0⟩ mu = -(mu * (1 - x ^ 2) / g.s) ∧ energy ⟨r1, v1⟩ mu = -(mu * (1 - x ^ 2) / g.s) ∧
      (∃ h : ℝ, 0 < h ∧ angMom ⟨r0, v0⟩ = h • cross f.irs f.its ∧ angMom ⟨r1, v1⟩ = h • cross f.irs f.its) ∧
      eccVec ⟨r0, v0⟩ mu = eccVec ⟨r1, v1⟩ mu := by
  refine ⟨_, _, velocities_ok S hmu x, ?_⟩
  have hy := yOf_sq S.lam_lt x
  have hS := yOf_add S.lam_lt x
  generalize yOf g.lam x = y at *
  have hga : √(mu * g.s / 2) ^ 2 = mu * g.s / 2 := sq_sqrt (by have := S.s_pos; positivity)
  have hga0 : 0 < √(mu * g.s / 2) := sqrt_pos.2 (by have := S.s_pos; positivity)
  generalize √(mu * g.s / 2) = ga at *
  have hRs := S.Rs_pos
  have hRf := S.Rf_pos
  have hs := S.s_pos
  have hsg := S.sg_pos
  refine ⟨?_, ?_, ⟨ga * sg * (y + g.lam * x), by positivity, ?_, ?_⟩, ?_⟩
  · conv_lhs => rw [S.r0_eq]
    rw [energy_local S.uu S.tt S.ut hRs]
    exact energy_core hs hmu hRs hga S.sg_sq hy S.Rs_eq
  · conv_lhs => rw [S.r1_eq]
    rw [energy_local S.ff S.gg S.fg hRf]
    have := energy_core (rho := -rho) (sg := sg) hs hmu hRf hga (by rw [S.sg_sq]; ring) hy (by rw [S.Rf_eq]; ring)
    rw [← this]; ring
  · conv_lhs => rw [S.r0_eq]
    rw [angMom_local]; congr 1; field_simp
  · conv_lhs => rw [S.r1_eq]
    rw [angMom_local, S.cross_f]; congr 1; field_simp
  · conv_lhs => rw [S.r0_eq]
    conv_rhs => rw [S.r1_eq]
    rw [eccVec_local S.uu S.tt S.ut hRs, eccVec_local S.ff S.gg S.fg hRf, S.irf_eq, S.itf_eq]
    obtain ⟨k1, k2⟩ := ecc_core S.sg_sq hy S.Rs_eq S.Rf_eq S.cos_eq S.sin_eq
    have a0 : g.Rs * (ga * sg * (y + g.lam * x) / g.Rs) ^ 2 / mu - 1
        = (g.s / 2 * (sg ^ 2 * (y + g.lam * x) ^ 2) - g.Rs) / g.Rs := by
      rw [show (ga * sg * (y + g.lam * x) / g.Rs) ^ 2 = ga ^ 2 * sg ^ 2 * (y + g.lam * x) ^ 2 / g.Rs ^ 2 by ring, hga]
      field_simp
    have a1 : g.Rf * (ga * sg * (y + g.lam * x) / g.Rf) ^ 2 / mu - 1
        = (g.s / 2 * (sg ^ 2 * (y + g.lam * x) ^ 2) - g.Rf) / g.Rf := by
      rw [show (ga * sg * (y + g.lam * x) / g.Rf) ^ 2 = ga ^ 2 * sg ^ 2 * (y + g.lam * x) ^ 2 / g.Rf ^ 2 by ring, hga]
      field_simp
    have b0 : g.Rs * (ga * ((g.lam * y - x) - rho * (g.lam * y + x)) / g.Rs) * (ga * sg * (y + g.lam * x) / g.Rs) / mu
        = (g.s / 2 * (sg * (y + g.lam * x) * ((g.lam * y - x) - rho * (g.lam * y + x)))) / g.Rs := by
      rw [show g.Rs * (ga * ((g.lam * y - x) - rho * (g.lam * y + x)) / g.Rs) * (ga * sg * (y + g.lam * x) / g.Rs)
        = ga ^ 2 * (((g.lam * y - x) - rho * (g.lam * y + x)) * sg * (y + g.lam * x)) / g.Rs by field_simp, hga]
      field_simp
    have b1 : g.Rf * (-ga * ((g.lam * y - x) + rho * (g.lam * y + x)) / g.Rf) * (ga * sg * (y + g.lam * x) / g.Rf) / mu
        = -(g.s / 2 * (sg * (y + g.lam * x) * ((g.lam * y - x) + rho * (g.lam * y + x)))) / g.Rf := by
      rw [show g.Rf * (-ga * ((g.lam * y - x) + rho * (g.lam * y + x)) / g.Rf) * (ga * sg * (y + g.lam * x) / g.Rf)
        = -(ga ^ 2 * (((g.lam * y - x) + rho * (g.lam * y + x)) * sg * (y + g.lam * x))) / g.Rf by field_simp, hga]
      field_simp
    rw [a0, a1, b0, b1]
    generalize g.s / 2 * (sg ^ 2 * (y + g.lam * x) ^ 2) = A at *
    generalize g.s / 2 * (sg * (y + g.lam * x) * ((g.lam * y - x) - rho * (g.lam * y + x))) = B0 at *
    generalize g.s / 2 * (sg * (y + g.lam * x) * ((g.lam * y - x) + rho * (g.lam * y + x))) = B1 at *
    have c1 : (A - g.Rs) / g.Rs = (A - g.Rf) / g.Rf * ct - B1 / g.Rf * st := by
      field_simp
      apply mul_left_cancel₀ hRf.ne'
      linear_combination k1
    have c2 : -(B0 / g.Rs) = (A - g.Rf) / g.Rf * st + B1 / g.Rf * ct := by
      field_simp
      apply mul_left_cancel₀ hRf.ne'
      linear_combination k2
    rw [c1]
    ext
    · simp; linear_combination f.its.x * c2
    · simp; linear_combination f.its.y * c2
    · simp; linear_combination f.its.z * c2

end
end Lambert
end Kep3
