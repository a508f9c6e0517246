import Verif.Lambert.Geometry
import Verif.Elements.Double

/-!
# The geometry of the Lambert problem in double precision

`src/lambert_problem.cpp` operation by operation, each result rounded, up to the non-dimensional time of flight, and from the iteration variable to
the velocities. The iterations in between are not modelled with rounding: the theorems hold for whatever value they return. `none`: NaN or infinity. Overflow,
underflow and contraction into fused operations are not modelled.
-/

namespace Kep3
open Real V3 Fl

namespace Lambert

/-- The geometry of the transfer with NaN. -/
structure GeomD where
  c : ℝ
  s : ℝ
  Rs : ℝ
  Rf : ℝ
  lambda2 : Option ℝ
  lam : Option ℝ
  frame : Option Frame

/-- The chord, src/lambert_problem.cpp:57. -/
noncomputable def chordD (A : Arith) (B : Blas) (r0 r1 : V3 ℝ) : ℝ := B.norm (A.sub r1 r0)

/-- The semiperimeter, src/lambert_problem.cpp:59-61. -/
noncomputable def semiD (A : Arith) (B : Blas) (r0 r1 : V3 ℝ) : ℝ :=
  A.rd (A.rd (A.rd (chordD A B r0 r1 + B.norm r0) + B.norm r1) / 2)

/-- The unit normal `ih`, src/lambert_problem.cpp:63-66. -/
noncomputable def normalD (A : Arith) (B : Blas) (r0 r1 : V3 ℝ) : Option (V3 ℝ × V3 ℝ × V3 ℝ) := do
  let irs ← A.vdiv? r0 (B.norm r0)
  let irf ← A.vdiv? r1 (B.norm r1)
  let ih := A.cross irs irf
  let ih ← A.vdiv? ih (B.norm ih)
  return (irs, irf, ih)

/-- `lambda2`, src/lambert_problem.cpp:73. -/
noncomputable def lambda2D (A : Arith) (B : Blas) (r0 r1 : V3 ℝ) : Option ℝ := do
  let q ← A.div? (chordD A B r0 r1) (semiD A B r0 r1)
  return A.rd (1 - q)

/-- The geometry, src/lambert_problem.cpp:57-92. Changes of sign are exact. -/
noncomputable def geomD (A : Arith) (B : Blas) (r0 r1 : V3 ℝ) (cw : Bool) : Res GeomD :=
  let n := normalD A B r0 r1
  if n.any (fun n => n.2.2.z = 0) then .err .domainError
  else
    let e := flip (n.map fun n => n.2.2.z) cw
    .ok { c := chordD A B r0 r1, s := semiD A B r0 r1, Rs := B.norm r0, Rf := B.norm r1,
          lambda2 := lambda2D A B r0 r1,
          lam := do
            let l2 ← lambda2D A B r0 r1
            let l ← A.sqrt? l2
            return e * l
          frame := do
            let (irs, irf, ih) ← n
            let its := A.cross ih irs
            let itf := A.cross ih irf
            let its ← A.vdiv? its (B.norm its)
            let itf ← A.vdiv? itf (B.norm itf)
            return ⟨irs, irf, e • its, e • itf⟩ }

/-- The non-dimensional time of flight, src/lambert_problem.cpp:94. -/
noncomputable def timeD (A : Arith) (s tof mu : ℝ) : Option ℝ := do
  let a ← A.div? (A.rd (2 * mu)) s
  let a ← A.div? a s
  let a ← A.div? a s
  let w ← A.sqrt? a
  return A.rd (w * tof)

/-- `vr * ir + vt * it`, src/lambert_problem.cpp:177, 180. -/
noncomputable def combD (A : Arith) (a : ℝ) (v : V3 ℝ) (b : ℝ) (w : V3 ℝ) : V3 ℝ :=
  ⟨A.rd (A.rd (a * v.x) + A.rd (b * w.x)), A.rd (A.rd (a * v.y) + A.rd (b * w.y)), A.rd (A.rd (a * v.z) + A.rd (b * w.z))⟩

/-- The terminal velocities, src/lambert_problem.cpp:165-182. -/
noncomputable def velocitiesD (A : Arith) (g : GeomD) (mu x : ℝ) : Option (V3 ℝ × V3 ℝ) := do
  let gamma ← A.sqrt? (A.rd (A.rd (mu * g.s) / 2))
  let rho ← A.div? (A.rd (g.Rs - g.Rf)) g.c
  let sigma ← A.sqrt? (A.rd (1 - A.rd (rho * rho)))
  let lambda2 ← g.lambda2
  let lam ← g.lam
  let y ← A.sqrt? (A.rd (A.rd (1 - lambda2) + A.rd (A.rd (lambda2 * x) * x)))
  let ly := A.rd (lam * y)
  let p := A.rd (ly - x)
  let q := A.rd (rho * A.rd (ly + x))
  let vrs ← A.div? (A.rd (gamma * A.rd (p - q))) g.Rs
  let vrf ← A.div? (A.rd (-gamma * A.rd (p + q))) g.Rf
  let vt := A.rd (A.rd (gamma * sigma) * A.rd (y + A.rd (lam * x)))
  let vts ← A.div? vt g.Rs
  let vtf ← A.div? vt g.Rf
  let f ← g.frame
  return (combD A vrs f.irs vts f.its, combD A vrf f.irf vtf f.itf)

/-- The geometry of `Verif/Lambert/Model.lean` in this form. -/
noncomputable def Geom.toD (g : Geom) : GeomD :=
  ⟨g.c, g.s, g.Rs, g.Rf, some (g.lam * g.lam), some g.lam, g.frame⟩

/-- Without rounding the velocities are those of `Verif/Lambert/Model.lean`. -/
theorem velocitiesD_exact (g : Geom) (mu x : ℝ) : velocitiesD Arith.exact g.toD mu x = velocities g mu x := by
  have hr : ∀ t : ℝ, Arith.exact.rd t = t := fun t => rfl
  have hd : ∀ a b : ℝ, Arith.exact.div? a b = div? a b := fun a b => by unfold Arith.div? Arith.exact; simp
  have hs : ∀ a : ℝ, Arith.exact.sqrt? a = sqrt? a := fun a => by unfold Arith.sqrt? Arith.exact; simp
  have hc : ∀ a v b w, combD Arith.exact a v b w = a • v + b • w := fun a v b w => rfl
  unfold velocitiesD velocities Geom.toD
  simp only [hr, hd, hs, hc, Option.bind_eq_bind, Option.bind_some]

/-- Without rounding the geometry is that of `Verif/Lambert/Model.lean`. -/
theorem geomD_exact {r0 r1 : V3 ℝ} (h : r0 ≠ 0) (cw : Bool) :
    geomD Arith.exact Blas.exact r0 r1 cw = (geom r0 r1 cw).bind fun g => .ok g.toD := by
  have hr : ∀ t : ℝ, Arith.exact.rd t = t := fun t => rfl
  have hd : ∀ a b : ℝ, Arith.exact.div? a b = div? a b := fun a b => by unfold Arith.div? Arith.exact; simp
  have hs : ∀ a : ℝ, Arith.exact.sqrt? a = sqrt? a := fun a => by unfold Arith.sqrt? Arith.exact; simp
  have hc : ∀ a b : V3 ℝ, Arith.exact.cross a b = V3.cross a b := fun a b => rfl
  have hv : ∀ (v : V3 ℝ) c, Arith.exact.vdiv? v c = vdiv? v c := fun v c => rfl
  have hsub : ∀ a b : V3 ℝ, Arith.exact.sub a b = a - b := fun a b => rfl
  have hn : normalD Arith.exact Blas.exact r0 r1 = normal r0 r1 := by
    unfold normalD normal; simp only [hv, hc, Blas.exact]
  have hch : chordD Arith.exact Blas.exact r0 r1 = norm (r1 - r0) := by unfold chordD; rw [hsub]; rfl
  have hsm : semiD Arith.exact Blas.exact r0 r1 = (norm (r1 - r0) + norm r0 + norm r1) / 2 := by
    unfold semiD; rw [hch]; simp only [hr, Blas.exact]
  have spos : 0 < (norm (r1 - r0) + norm r0 + norm r1) / 2 := by
    have := norm_pos h
    have := norm_nonneg r1
    have := norm_nonneg (r1 - r0)
    linarith
  have hl : lambda2D Arith.exact Blas.exact r0 r1 = some (1 - norm (r1 - r0) / ((norm (r1 - r0) + norm r0 + norm r1) / 2)) := by
    unfold lambda2D
    rw [hch, hsm, hd, div?_ok spos.ne']
    rfl
  have tri := lambda2_nonneg r0 r1
  unfold geomD geom
  rw [hn, hch, hsm, hl]
  simp only [hs, hc, hv, Blas.exact]
  generalize (normal r0 r1) = n
  by_cases hz : n.any (fun n => n.2.2.z = 0) = true
  · rw [if_pos hz, if_pos hz]; rfl
  · rw [if_neg hz, if_neg hz]
    have hsq : ∀ e : ℝ, e * e = 1 → ∀ t : ℝ, 0 ≤ t → (e * √t) * (e * √t) = t := by
      intro e he t ht
      rw [mul_mul_mul_comm, he, one_mul, mul_self_sqrt ht]
    simp only [Res.bind, Geom.toD, hsq _ (flip_sq _ _) _ tri, sqrt?_ok tri, Option.bind_eq_bind, Option.bind_some, Option.pure_def]

end Lambert
end Kep3
