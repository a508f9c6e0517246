import Verif.Flyby.Props84
import Verif.Elements.Model

/-!
# Keplerian elements in double precision

`ic2par` of `src/core_astro/ic2par2ic.cpp` with every operation rounded. `xt::linalg::dot` and `xt::linalg::norm` (BLAS `ddot` and
`dnrm2`, whose order of operations depends on the library) are parameters. Each element is an `Option`: `none` is NaN or infinity.
Not modelled: overflow, underflow, and contraction of products and sums into fused operations.
-/

namespace Kep3
open Real V3 Fl

namespace Arith
variable (A : Arith)

/-- `xt::linalg::cross` of 3-vectors. -/
noncomputable def cross (a b : V3 ℝ) : V3 ℝ :=
  ⟨A.rd (A.rd (a.y * b.z) - A.rd (a.z * b.y)), A.rd (A.rd (a.z * b.x) - A.rd (a.x * b.z)), A.rd (A.rd (a.x * b.y) - A.rd (a.y * b.x))⟩
/-- Division of a vector by a scalar. -/
noncomputable def vdiv? (v : V3 ℝ) (c : ℝ) : Option (V3 ℝ) :=
  if c = 0 then none else some ⟨A.rd (v.x / c), A.rd (v.y / c), A.rd (v.z / c)⟩
/-- Difference of vectors. -/
noncomputable def sub (a b : V3 ℝ) : V3 ℝ := ⟨A.rd (a.x - b.x), A.rd (a.y - b.y), A.rd (a.z - b.z)⟩
/-- `acosFlip` with rounding; `pi` is a double, include/kep3/core_astro/constants.hpp:25. -/
noncomputable def acosFlip (c : ℝ) (flip : Prop) [Decidable flip] : Option ℝ := do
  let x ← A.acos? c
  return if flip then A.rd (A.rd (2 * A.rd π) - x) else x

end Arith

/-- The functions of BLAS used. -/
structure Blas where
  /-- `xt::linalg::dot` -/
  dot : V3 ℝ → V3 ℝ → ℝ
  /-- `xt::linalg::norm` -/
  norm : V3 ℝ → ℝ

/-- What is assumed of BLAS: accuracy, and exactness on vectors along an axis; a norm is at least as large as the components. -/
structure Blas.Ok (B : Blas) : Prop where
  dot : ∀ v w, |B.dot v w - V3.dot v w| ≤ 4 * u * (V3.norm v * V3.norm w)
  norm : ∀ v, Near 5 (V3.norm v) (B.norm v)
  norm_ge : ∀ v, Rep v.x → Rep v.y → Rep v.z → |v.x| ≤ B.norm v ∧ |v.y| ≤ B.norm v ∧ |v.z| ≤ B.norm v
  dot_x : ∀ a b, B.dot ⟨a, 0, 0⟩ ⟨b, 0, 0⟩ = rn (a * b)
  norm_x : ∀ a, Rep a → B.norm ⟨a, 0, 0⟩ = |a|

/-- The elements, each a number or not. -/
structure ParD where
  a : Option ℝ
  e : Option ℝ
  i : Option ℝ
  Om : Option ℝ
  om : Option ℝ
  f : Option ℝ

/-- All of the elements, if they are numbers. -/
def ParD.collect (q : ParD) : Option Par := do
  return ⟨← q.a, ← q.e, ← q.i, ← q.Om, ← q.om, ← q.f⟩

/-- The angular momentum, src/core_astro/ic2par2ic.cpp:40. -/
noncomputable def angMomD (A : Arith) (x : RV ℝ) : V3 ℝ := A.cross x.r x.v

/-- The unit vector of the node line, src/core_astro/ic2par2ic.cpp:48-49. -/
noncomputable def nodeD (A : Arith) (B : Blas) (x : RV ℝ) : Option (V3 ℝ) :=
  A.vdiv? (A.cross kHat (angMomD A x)) (B.norm (A.cross kHat (angMomD A x)))

/-- The eccentricity vector, src/core_astro/ic2par2ic.cpp:52-53. -/
noncomputable def eccVecD (A : Arith) (B : Blas) (x : RV ℝ) (mu : ℝ) : Option (V3 ℝ) := do
  let vh ← A.vdiv? (A.cross x.v (angMomD A x)) mu
  let ru ← A.vdiv? x.r (B.norm x.r)
  return A.sub vh ru

open Classical in
/-- `ic2par`, src/core_astro/ic2par2ic.cpp:30-90. -/
noncomputable def ic2parD (A : Arith) (B : Blas) (x : RV ℝ) (mu : ℝ) : ParD where
  a := do
    let p ← A.div? (B.dot (angMomD A x) (angMomD A x)) mu
    let ev ← eccVecD A B x mu
    A.div? p (A.rd (1 - A.rd (B.norm ev * B.norm ev)))
  e := do
    let ev ← eccVecD A B x mu
    return B.norm ev
  i := do
    let c ← A.div? (angMomD A x).z (B.norm (angMomD A x))
    A.acos? c
  Om := do
    let n ← nodeD A B x
    A.acosFlip n.x (n.y < 0)
  om := do
    let n ← nodeD A B x
    let ev ← eccVecD A B x mu
    let c ← A.div? (B.dot n ev) (B.norm ev)
    A.acosFlip c (ev.z < 0)
  f := do
    let ev ← eccVecD A B x mu
    let c ← A.div? (B.dot ev x.r) (B.norm ev)
    let c ← A.div? c (B.norm x.r)
    A.acosFlip c (B.dot x.r x.v < 0)

/-- BLAS without rounding. -/
noncomputable def Blas.exact : Blas := ⟨V3.dot, V3.norm⟩

/-- Without rounding this is the model of `Verif/Elements/Model.lean`. -/
theorem ic2parD_exact (x : RV ℝ) (mu : ℝ) : (ic2parD Arith.exact Blas.exact x mu).collect = ic2par x mu := by
  have hc : ∀ a b : V3 ℝ, Arith.exact.cross a b = V3.cross a b := fun a b => rfl
  have hv : ∀ (v : V3 ℝ) c, Arith.exact.vdiv? v c = vdiv? v c := fun v c => rfl
  have hd : ∀ a b : ℝ, Arith.exact.div? a b = div? a b := fun a b => by unfold Arith.div? Arith.exact; simp
  have hf : ∀ (c : ℝ) (p : Prop) [Decidable p], Arith.exact.acosFlip c p = acosFlip c p := fun c p _ => rfl
  have ha : ∀ c : ℝ, Arith.exact.acos? c = acos? c := fun c => rfl
  have hs : ∀ a b : V3 ℝ, Arith.exact.sub a b = a - b := fun a b => rfl
  unfold ParD.collect ic2parD nodeD eccVecD angMomD ic2par
  have hr : ∀ t : ℝ, Arith.exact.rd t = t := fun t => rfl
  simp only [hc, hv, hd, hf, ha, hs, hr, Blas.exact]
  generalize vdiv? (V3.cross kHat (V3.cross x.r x.v)) (V3.norm (V3.cross kHat (V3.cross x.r x.v))) = n
  generalize vdiv? (V3.cross x.v (V3.cross x.r x.v)) mu = vh
  generalize vdiv? x.r (V3.norm x.r) = ru
  generalize div? (V3.dot (V3.cross x.r x.v) (V3.cross x.r x.v)) mu = p
  generalize div? (V3.cross x.r x.v).z (V3.norm (V3.cross x.r x.v)) = ci
  rcases p with _ | p
  · rfl
  rcases n with _ | n
  · rcases vh with _ | vh <;> rcases ru with _ | ru <;> simp
  rcases vh with _ | vh
  · rfl
  rcases ru with _ | ru
  · rfl
  simp only [Option.bind_eq_bind, Option.bind_some, Option.pure_def]
  generalize div? p (1 - V3.norm (vh - ru) * V3.norm (vh - ru)) = a
  generalize div? (V3.dot n (vh - ru)) (V3.norm (vh - ru)) = cw
  generalize div? (V3.dot (vh - ru) x.r) (V3.norm (vh - ru)) = cf
  rcases a with _ | a
  · rfl
  rcases ci with _ | ci
  · rfl
  simp only [Option.bind_some]
  generalize acos? ci = inc
  rcases inc with _ | inc
  · rfl
  rcases cw with _ | cw
  · simp
  simp only [Option.bind_some]
  generalize acosFlip cw ((vh - ru).z < 0) = om
  generalize acosFlip n.x (n.y < 0) = Om
  rcases om with _ | om <;> rcases Om with _ | Om <;> try simp
  rcases cf with _ | cf
  · rfl
  simp only [Option.bind_some]
  generalize div? cf (V3.norm x.r) = c2
  rcases c2 with _ | c2 <;> rfl

end Kep3
