import Verif.SF.Kepler
import Verif.RealOps

/-!
# The mass row of `compute_mc_grad` with the division by the norm of a throttle kept partial

`mcGrad` (GradModel.lean) divides with the total real division. Here the only quotient of the code whose
denominator an accepted leg can make zero, `c / m[i] / un` (src/leg/sims_flanagan.cpp:335), is partial: `none` stands
for a value that is not a number. With `un = 0` the quotient is an infinity (or NaN), the scalar product it multiplies
is zero, so the product is NaN in floating point, and sums and products with a NaN are NaN. Only the last row (the
gradient of the mass mismatch) is modelled: no matrix product of the linear algebra library is involved in it.
-/

namespace Kep3.SF

open Kep3 SFSpec

namespace GradArgs

variable (g : GradArgs)

/-- `dDvn`, src/leg/sims_flanagan.cpp:335-336. -/
noncomputable def dDvn? (i : ℕ) (dm : ℕ → Option ℝ) (j : ℕ) : Option ℝ := do
  let q ← div? (g.c / g.m i) (g.un i)
  let d ← dm j
  return q * (∑ k, V3.get (g.u i) k * du i k j) - g.c / g.m i / g.m i * g.un i * d
    + g.maxThrust / g.m i * g.un i * g.dtof j / g.n
/-- `dm[i](0, j)`, src/leg/sims_flanagan.cpp:307, 326, 338. -/
noncomputable def dm? : ℕ → ℕ → Option ℝ
  | 0, j => some (if j = 3 * g.n then 1 else 0)
  | i + 1, j => do
    let x ← g.dDvn? i (dm? i) j
    let d ← dm? i j
    return -g.m (i + 1) * g.a * x + Real.exp (-(g.c / g.m i * g.un i) * g.a) * d
/-- Last row of `grad_rvm`, src/leg/sims_flanagan.cpp:296-302 (no segment) and 400, 417. -/
noncomputable def massRvm? (j : ℕ) : Option ℝ :=
  if g.n = 0 then some (if 6 = j then 1 else 0) else if j = 6 then g.dm? g.n (3 * g.n) else some 0
/-- Last row of `grad`, src/leg/sims_flanagan.cpp:300 (no segment) and 410-412. -/
noncomputable def massGrad? (j : ℕ) : Option ℝ :=
  if g.n = 0 then some 0 else if j < 3 * g.n then g.dm? g.n j else g.dm? g.n (3 * g.n + 1)

end GradArgs

/-- Last row of the first return value of `gradients_bck`, src/leg/sims_flanagan.cpp:464-467. -/
noncomputable def bckMassRvm? (g : GradArgs) (j : ℕ) : Option ℝ :=
  let x := (bckArgs g).massRvm? j
  let x := if j < 3 then x.map (· * -1) else x
  if j = 6 then x.map (· * -1) else x

/-- Last row of the second return value of `gradients_bck`, src/leg/sims_flanagan.cpp:469-478. -/
noncomputable def bckMassGrad? (g : GradArgs) (j : ℕ) : Option ℝ :=
  let size := 3 * g.us.length
  let x := fun j => (bckArgs g).massGrad? j
  let x := fun j => if j < size then (x j).map (· * -1) else x j
  let x1 := fun j => if j < size then x (size - 1 - j) else x j
  let x2 := fun j => if j < size then x1 (3 * (j / 3) + (2 - j % 3)) else x1 j
  x2 j

/-- The last rows of the three arrays returned by `compute_mc_grad`, src/leg/sims_flanagan.cpp:484-519. -/
noncomputable def mcGradMass? (l : Leg ℝ) : (ℕ → Option ℝ) × (ℕ → Option ℝ) × (ℕ → Option ℝ) :=
  let F := halfArgs l ((triples l.throttles).take l.nsegFwd) l.rvs l.ms
  let B := halfArgs l ((triples l.throttles).drop l.nsegFwd) l.rvf l.mf
  let fin : ℕ → Option ℝ := fun j =>
    if j < l.nsegFwd * 3 then F.massGrad? j
    else if j < l.nseg * 3 then bckMassGrad? B (j - l.nsegFwd * 3)
    else do
      let x ← F.massGrad? (l.nsegFwd * 3)
      let y ← bckMassGrad? B ((l.nseg - l.nsegFwd) * 3)
      return x / l.nseg * l.nsegFwd - y / l.nseg * (l.nseg - l.nsegFwd : ℕ)
  (F.massRvm?, bckMassRvm? B, fin)

/-! ## Where no throttle is zero -/

namespace GradArgs

variable {g : GradArgs}

theorem un_eq_zero {i : ℕ} : g.un i = 0 ↔ g.u i = 0 := by
  unfold un
  rw [Real.sqrt_eq_zero (add_nonneg (add_nonneg (mul_self_nonneg _) (mul_self_nonneg _)) (mul_self_nonneg _))]
  constructor
  · intro h
    have hx : (g.u i).x = 0 := by nlinarith [sq_nonneg (g.u i).x, sq_nonneg (g.u i).y, sq_nonneg (g.u i).z]
    have hy : (g.u i).y = 0 := by nlinarith [sq_nonneg (g.u i).x, sq_nonneg (g.u i).y, sq_nonneg (g.u i).z]
    have hz : (g.u i).z = 0 := by nlinarith [sq_nonneg (g.u i).x, sq_nonneg (g.u i).y, sq_nonneg (g.u i).z]
    ext <;> assumption
  · intro h; rw [h]; simp

theorem dm?_some {n : ℕ} (h : ∀ i < n, g.u i ≠ 0) (j : ℕ) : g.dm? n j = some (g.dm n j) := by
  induction n generalizing j with
  | zero => rfl
  | succ n ih =>
    have ih' := ih fun i hi => h i (by omega)
    have hn : g.un n ≠ 0 := fun e => h n (by omega) (un_eq_zero.1 e)
    simp only [dm?, dDvn?, ih', div?_ok hn, dm, dDvn]
    rfl

/-- One zero throttle makes every later derivative of the mass NaN. -/
theorem dm?_none {n i : ℕ} (hi : i < n) (h : g.u i = 0) (j : ℕ) : g.dm? n j = none := by
  induction n with
  | zero => omega
  | succ n ih =>
    rcases Nat.lt_succ_iff_lt_or_eq.1 hi with hi | rfl
    · simp only [dm?, dDvn?, ih hi]
      cases div? (g.c / g.m n) (g.un n) <;> rfl
    · have : g.un i = 0 := un_eq_zero.2 h
      simp only [dm?, dDvn?, div?, this, if_true]
      rfl

end GradArgs

theorem bckArgs_n (g : GradArgs) : (bckArgs g).n = g.n := by unfold bckArgs GradArgs.n; simp

theorem bckArgs_u (g : GradArgs) {i : ℕ} (hi : i < g.n) : (bckArgs g).u i = g.u (g.n - 1 - i) := by
  unfold GradArgs.n at hi
  unfold bckArgs GradArgs.u GradArgs.n
  simp only [List.getD_eq_getElem?_getD]
  rw [List.getElem?_reverse hi]

theorem massRvm?_some {g : GradArgs} (φ : RV ℝ → ℝ → RV ℝ) (Φ : RV ℝ → ℝ → Matrix (Fin 6) (Fin 6) ℝ)
    (h : ∀ i < g.n, g.u i ≠ 0) (j : ℕ) : g.massRvm? j = some (g.gradRvm φ Φ 6 j) := by
  unfold GradArgs.massRvm? GradArgs.gradRvm
  rw [g.dm?_some h, dif_neg (lt_irrefl 6)]
  split_ifs <;> rfl

theorem massGrad?_some {g : GradArgs} (φ : RV ℝ → ℝ → RV ℝ) (Φ : RV ℝ → ℝ → Matrix (Fin 6) (Fin 6) ℝ)
    (h : ∀ i < g.n, g.u i ≠ 0) (j : ℕ) : g.massGrad? j = some (g.grad φ Φ 6 j) := by
  unfold GradArgs.massGrad? GradArgs.grad
  rw [g.dm?_some h, g.dm?_some h, dif_neg (lt_irrefl 6)]
  split_ifs <;> rfl

theorem bck_ne {g : GradArgs} (h : ∀ i < g.n, g.u i ≠ 0) : ∀ i < (bckArgs g).n, (bckArgs g).u i ≠ 0 := by
  intro i hi
  rw [bckArgs_n] at hi
  rw [bckArgs_u g hi]
  exact h _ (by omega)

theorem bckMassRvm?_some {g : GradArgs} (φ : RV ℝ → ℝ → RV ℝ) (Φ : RV ℝ → ℝ → Matrix (Fin 6) (Fin 6) ℝ)
    (h : ∀ i < g.n, g.u i ≠ 0) (j : ℕ) : bckMassRvm? g j = some (bckRvm φ Φ g 6 j) := by
  unfold bckMassRvm? bckRvm
  simp only [massRvm?_some φ Φ (bck_ne h), if_neg (show ¬ (3 ≤ 6 ∧ 6 < 6) by omega)]
  split_ifs <;> rfl

theorem bckMassGrad?_some {g : GradArgs} (φ : RV ℝ → ℝ → RV ℝ) (Φ : RV ℝ → ℝ → Matrix (Fin 6) (Fin 6) ℝ)
    (h : ∀ i < g.n, g.u i ≠ 0) (j : ℕ) : bckMassGrad? g j = some (bckGrad φ Φ g 6 j) := by
  unfold bckMassGrad? bckGrad
  simp only [massGrad?_some φ Φ (bck_ne h), if_neg (show ¬ (3 ≤ 6 ∧ 6 < 6) by omega)]
  split_ifs <;> rfl

theorem bckHalf_u (l : Leg ℝ) (i : ℕ) : (bckHalf l).u i = (triples l.throttles).getD (l.nsegFwd + i) 0 := by
  show ((triples l.throttles).drop l.nsegFwd).getD i 0 = _
  simp only [List.getD_eq_getElem?_getD, List.getElem?_drop]

/-- **C81**, legs without a zero throttle: every entry of the last rows is a number, the one `mcGrad` computes (which
is the derivative, C47). -/
theorem C81_numbers_partial (φ : RV ℝ → ℝ → RV ℝ) (Φ : RV ℝ → ℝ → Matrix (Fin 6) (Fin 6) ℝ) {l : Leg ℝ}
    (hl : l.throttles.length = 3 * l.nseg) (hs : l.nsegFwd + l.nsegBck = l.nseg)
    (h : ∀ u ∈ triples l.throttles, u ≠ 0) {gs gf g : List ℝ} (hg : mcGrad φ Φ l = (gs, gf, g)) :
    (∀ j < 7, (mcGradMass? l).1 j = gs[7 * 6 + j]?) ∧ (∀ j < 7, (mcGradMass? l).2.1 j = gf[7 * 6 + j]?) ∧
      ∀ j < 3 * l.nseg + 1, (mcGradMass? l).2.2 j = g[(3 * l.nseg + 1) * 6 + j]? := by
  have hlen := triples_length _ _ hl
  have hget : ∀ i < l.nseg, (triples l.throttles).getD i 0 ≠ 0 := by
    intro i hi
    rw [List.getD_eq_getElem?_getD, List.getElem?_eq_getElem (by omega), Option.getD_some]
    exact h _ (List.getElem_mem _)
  have hF : ∀ i < (fwdHalf l).n, (fwdHalf l).u i ≠ 0 := by
    intro i hi
    rw [fwdHalf_n l hl hs] at hi
    rw [fwd_u l hi]
    exact hget i (by omega)
  have hB : ∀ i < (bckHalf l).n, (bckHalf l).u i ≠ 0 := by
    intro i hi
    rw [bckHalf_n l hl hs] at hi
    rw [bckHalf_u]
    exact hget _ (by omega)
  have flat : ∀ (cols j : ℕ) (x : ℕ → ℕ → ℝ), j < cols → (flatten 7 cols x)[cols * 6 + j]? = some (x 6 j) := by
    intro cols j x hj
    unfold flatten
    rw [List.getElem?_map, List.getElem?_range (by omega), Option.map_some,
      show (cols * 6 + j) / cols = 6 by
        rw [Nat.mul_add_div (by omega), Nat.div_eq_of_lt hj],
      show (cols * 6 + j) % cols = j by rw [Nat.mul_add_mod, Nat.mod_eq_of_lt hj]]
  simp only [mcGrad, Prod.mk.injEq] at hg
  obtain ⟨rfl, rfl, rfl⟩ := hg
  refine ⟨fun j hj => ?_, fun j hj => ?_, fun j hj => ?_⟩
  · rw [flat 7 j _ hj]
    exact massRvm?_some φ Φ hF j
  · rw [flat 7 j _ hj]
    exact bckMassRvm?_some φ Φ hB j
  · rw [show 3 * l.nseg + 1 = l.nseg * 3 + 1 by ring] at hj ⊢
    rw [flat _ j _ hj]
    unfold mcGradMass?
    simp only
    have f := fun j => massGrad?_some φ Φ hF j
    have b := fun j => bckMassGrad?_some φ Φ hB j
    unfold fwdHalf at f
    unfold bckHalf at b
    simp only [f, b]
    split_ifs <;> rfl

/-! ## A zero throttle -/

/-- The mass mismatch does not depend on the propagator. -/
theorem mass_mismatch (φ : RV ℝ → ℝ → Option (RV ℝ)) (l : Leg ℝ) (hl : l.throttles.length = 3 * l.nseg)
    (hs : l.nsegFwd + l.nsegBck = l.nseg) (htof : 0 ≤ l.tof) (hT : 0 ≤ l.maxThrust) (hms : 0 < l.ms) (hmf : 0 < l.mf) :
    ∃ d, computeMismatch φ l = .ok (d, (fwdHalf l).m l.nsegFwd - (bckArgs (bckHalf l)).m l.nsegBck) := by
  have h := mismatch_eq inertial inertial_reversible l hl hs htof hT hms hmf
  have e1 : (fwdEnd inertial l).2 = (fwdHalf l).m l.nsegFwd := by
    unfold fwdEnd
    split
    · rename_i h0; rw [h0]; rfl
    · rfl
  have e2 : (bckEnd inertial l).2 = (bckArgs (bckHalf l)).m l.nsegBck := by
    unfold bckEnd
    split
    · rename_i h0; rw [h0]; rfl
    · rfl
  rw [e1, e2] at h
  unfold computeMismatch at h ⊢
  simp only [fwdPass_eq _ _ _ l.nseg l.nsegFwd _ hl (by omega), bckPass_eq _ _ _ l.nseg l.nsegBck _ hl (by omega),
    Res.ok_bind, show l.nseg - l.nsegBck = l.nsegFwd by omega] at h ⊢
  have hF := pass_mono (M := fwdMachine φ (l.maxThrust * (l.tof / l.nseg)) (l.isp * G0))
    (N := fwdMachine (fun x t => some (inertial x t)) (l.maxThrust * (l.tof / l.nseg)) (l.isp * G0))
    (R := fun a b => a.m = b.m) (fun _ _ _ h => h) (by
      rintro ⟨ar, am⟩ ⟨br, bm⟩ u h
      change am = bm at h
      subst h; rfl) (l.tof / l.nseg) ((triples l.throttles).take l.nsegFwd)
    (a := ⟨some l.rvs, l.ms⟩) (b := ⟨some l.rvs, l.ms⟩) rfl
  have hB := pass_mono (M := bckMachine φ (l.maxThrust * (l.tof / l.nseg)) (l.isp * G0))
    (N := bckMachine (fun x t => some (inertial x t)) (l.maxThrust * (l.tof / l.nseg)) (l.isp * G0))
    (R := fun a b => a.m = b.m) (fun _ _ _ h => h) (by
      rintro ⟨ar, am⟩ ⟨br, bm⟩ u h
      change am = bm at h
      subst h; rfl) (-(l.tof / l.nseg)) ((triples l.throttles).drop l.nsegFwd).reverse
    (a := ⟨some l.rvf, l.mf⟩) (b := ⟨some l.rvf, l.mf⟩) rfl
  have h := Res.ok.inj h
  simp only [Prod.mk.injEq] at h
  rw [hF, hB]
  exact ⟨_, congrArg Res.ok (Prod.ext rfl h.2)⟩

/-- The mass along a half leg is differentiable when the initial mass and the time of flight vary. -/
theorem m_differentiable {G : ℝ → GradArgs} (hu : ∀ e, (G e).us = (G 0).us) (ha : ∀ e, (G e).a = (G 0).a)
    (hc : DifferentiableAt ℝ (fun e => (G e).c) 0) (hm : DifferentiableAt ℝ (fun e => (G e).ms) 0)
    (h0 : 0 < (G 0).ms) (i : ℕ) : DifferentiableAt ℝ (fun e => (G e).m i) 0 := by
  induction i with
  | zero => exact hm
  | succ i ih =>
    have hun : ∀ e, (G e).un i = (G 0).un i := by
      intro e; unfold GradArgs.un GradArgs.u; rw [hu e]
    have : (fun e => (G e).m (i + 1)) =
        fun e => (G e).m i * Real.exp (-((G e).c / (G e).m i * (G 0).un i) * (G 0).a) := by
      funext e
      simp only [GradArgs.m, hun e, ha e]
    rw [this]
    exact ih.mul (((hc.div ih (m_pos _ h0 i).ne').mul_const _).neg.mul_const _).exp

/-- **C81**, negation for legs with a zero throttle (and positive masses and time of flight), whatever the propagator:
the mass mismatch is differentiable with respect to the masses and the time of flight, and yet the entries of
`compute_mc_grad` for the derivative of the mass mismatch with respect to the mass at that end, to every throttle of
that half of the leg (zero or not) and to the time of flight are NaN. -/
theorem C81_zero_throttle (φ : RV ℝ → ℝ → Option (RV ℝ)) {l : Leg ℝ} (hl : l.throttles.length = 3 * l.nseg)
    (hs : l.nsegFwd + l.nsegBck = l.nseg) (htof : 0 < l.tof) (hT : 0 ≤ l.maxThrust) (hms : 0 < l.ms) (hmf : 0 < l.mf)
    {i : ℕ} (hi : (triples l.throttles)[i]? = some 0) :
    (∀ a b c : ℝ, ∃ D : ℝ → ℝ, (∀ᶠ e in nhds 0, ∃ d,
        computeMismatch φ { l with ms := l.ms + a * e, mf := l.mf + b * e, tof := l.tof + c * e } = .ok (d, D e)) ∧
      DifferentiableAt ℝ D 0) ∧
    (i < l.nsegFwd → (mcGradMass? l).1 6 = none ∧ ∀ j < 3 * l.nsegFwd, (mcGradMass? l).2.2 j = none) ∧
    (l.nsegFwd ≤ i → (mcGradMass? l).2.1 6 = none ∧
      ∀ j, 3 * l.nsegFwd ≤ j → j < 3 * l.nseg → (mcGradMass? l).2.2 j = none) ∧
    (mcGradMass? l).2.2 (3 * l.nseg) = none := by
  have hL := triples_length _ _ hl
  have hin : i < l.nseg := by have := (List.getElem?_eq_some_iff.1 hi).1; omega
  have hget : (triples l.throttles).getD i 0 = 0 := by rw [List.getD_eq_getElem?_getD, hi, Option.getD_some]
  have nF := fwdHalf_n l hl hs
  have nB := bckHalf_n l hl hs
  have nB' : (bckArgs (bckHalf l)).n = l.nsegBck := by rw [bckArgs_n, nB]
  have lB : (bckHalf l).us.length = l.nsegBck := nB
  have F : i < l.nsegFwd → ∀ j, (fwdHalf l).massGrad? j = none ∧ (fwdHalf l).massRvm? 6 = none := by
    intro h j
    have hu : (fwdHalf l).u i = 0 := by rw [fwd_u l h, hget]
    unfold GradArgs.massGrad? GradArgs.massRvm?
    have h0 : l.nsegFwd ≠ 0 := by omega
    simp only [nF, if_neg h0, if_true, GradArgs.dm?_none h hu, ite_self, and_self]
  have B : l.nsegFwd ≤ i → ∀ j, bckMassGrad? (bckHalf l) j = none ∧ bckMassRvm? (bckHalf l) 6 = none := by
    intro h j
    have hi' : l.nseg - 1 - i < l.nsegBck := by omega
    have hu : (bckArgs (bckHalf l)).u (l.nseg - 1 - i) = 0 := by
      rw [bck_u l hs hl hi', show l.nseg - 1 - (l.nseg - 1 - i) = i by omega, hget]
    have g0 : ∀ j, (bckArgs (bckHalf l)).massGrad? j = none := by
      intro j
      unfold GradArgs.massGrad?
      rw [nB', if_neg (by omega), GradArgs.dm?_none hi' hu, GradArgs.dm?_none hi' hu]
      simp
    constructor
    · unfold bckMassGrad?
      simp only [g0, Option.map_none, ite_self]
    · unfold bckMassRvm? GradArgs.massRvm?
      have h0 : l.nsegBck ≠ 0 := by omega
      simp only [nB', if_neg h0, if_true, GradArgs.dm?_none hi' hu, Option.map_none, ite_self]
  refine ⟨fun a b c => ?_, fun h => ⟨(F h 0).2, fun j hj => ?_⟩, fun h => ⟨(B h 0).2, fun j h1 h2 => ?_⟩, ?_⟩
  · let L : ℝ → Leg ℝ := fun e => { l with ms := l.ms + a * e, mf := l.mf + b * e, tof := l.tof + c * e }
    have lin : ∀ x y : ℝ, DifferentiableAt ℝ (fun e => x + y * e) 0 := fun x y =>
      (differentiableAt_id.const_mul y).const_add x
    have pos : ∀ x y : ℝ, 0 < x → ∀ᶠ e in nhds (0 : ℝ), 0 < x + y * e := fun x y hx =>
      (lin x y).continuousAt.eventually_const_lt (by simpa using hx)
    refine ⟨fun e => (fwdHalf (L e)).m l.nsegFwd - (bckArgs (bckHalf (L e))).m l.nsegBck, ?_, ?_⟩
    · filter_upwards [pos _ a hms, pos _ b hmf, pos _ c htof] with e h1 h2 h3
      exact mass_mismatch φ (L e) hl hs h3.le hT h1 h2
    · refine (m_differentiable (G := fun e => fwdHalf (L e)) (fun _ => rfl) (fun _ => rfl) ?_ (lin _ _) ?_ _).sub
        (m_differentiable (G := fun e => bckArgs (bckHalf (L e))) (fun _ => rfl) (fun _ => rfl) ?_ (lin _ _) ?_ _)
      · exact ((lin l.tof c).div_const (l.nseg : ℝ)).const_mul l.maxThrust
      · simpa [L, fwdHalf, halfArgs] using hms
      · exact ((lin l.tof c).div_const (l.nseg : ℝ)).const_mul l.maxThrust
      · simpa [L, bckHalf, halfArgs, bckArgs] using hmf
  · unfold mcGradMass?
    simp only [if_pos (show j < l.nsegFwd * 3 by omega)]
    exact (F h j).1
  · unfold mcGradMass?
    simp only [if_neg (show ¬ j < l.nsegFwd * 3 by omega), if_pos (show j < l.nseg * 3 by omega)]
    exact (B h _).1
  · unfold mcGradMass?
    simp only [if_neg (show ¬ 3 * l.nseg < l.nsegFwd * 3 by omega), if_neg (show ¬ 3 * l.nseg < l.nseg * 3 by omega)]
    rcases Nat.lt_or_ge i l.nsegFwd with h | h
    · have := (F h (l.nsegFwd * 3)).1
      unfold fwdHalf at this
      rw [this]; rfl
    · have := (B h ((l.nseg - l.nsegFwd) * 3)).1
      unfold bckHalf at this
      rw [this]
      cases (halfArgs l ((triples l.throttles).take l.nsegFwd) l.rvs l.ms).massGrad? (l.nsegFwd * 3) <;> rfl

/-- The default constructed leg (include/kep3/leg/sims_flanagan.hpp:120-136: two zero throttles) is such a leg: all the
entries of the mass row that depend on the throttles are NaN. -/
theorem C81_default (l : Leg ℝ) (h : l =
    { rvs := ⟨⟨1, 0, 0⟩, ⟨0, 1, 0⟩⟩, ms := 1, throttles := [0, 0, 0, 0, 0, 0],
      rvf := ⟨⟨0, 1, 0⟩, ⟨-1, 0, 0⟩⟩, mf := 1, tof := Real.pi / 2, maxThrust := 1, isp := 1, mu := 1, cut := 1 / 2,
      nseg := 2, nsegFwd := 1, nsegBck := 1 }) :
    (mcGradMass? l).1 6 = none ∧ (mcGradMass? l).2.1 6 = none ∧ ∀ j < 7, (mcGradMass? l).2.2 j = none := by
  have key := fun i hi => C81_zero_throttle (fun _ _ => none) (l := l) (by rw [h]; rfl) (by rw [h]; rfl)
    (by rw [h]; exact half_pos Real.pi_pos) (by rw [h]; norm_num) (by rw [h]; norm_num) (by rw [h]; norm_num) (i := i) hi
  have h0 := key 0 (by rw [h]; rfl)
  have h1 := key 1 (by rw [h]; rfl)
  have n1 : l.nsegFwd = 1 := by rw [h]
  have n2 : l.nseg = 2 := by rw [h]
  rw [n1, n2] at h0 h1
  refine ⟨(h0.2.1 (by norm_num)).1, (h1.2.2.1 (by norm_num)).1, fun j hj => ?_⟩
  rcases Nat.lt_or_ge j 3 with h | h
  · exact (h0.2.1 (by norm_num)).2 j h
  rcases Nat.lt_or_ge j 6 with h' | h'
  · exact (h1.2.2.1 (by norm_num)).2 j h h'
  · obtain rfl : j = 6 := by omega
    exact h0.2.2.2

/-- A leg without zero throttles: the hypotheses of `C81_numbers_partial` are met. -/
example : ∃ l : Leg ℝ, l.throttles.length = 3 * l.nseg ∧ l.nsegFwd + l.nsegBck = l.nseg ∧ 0 < l.nsegFwd ∧
    ∀ u ∈ triples l.throttles, u ≠ 0 := by
  refine ⟨
    { rvs := ⟨⟨1, 0, 0⟩, ⟨0, 1, 0⟩⟩, ms := 1, throttles := [1, 0, 0, 0, 1, 0], rvf := ⟨⟨2, 0, 0⟩, ⟨0, 1, 0⟩⟩,
      mf := 1, tof := 1, maxThrust := 1, isp := 1, mu := 0, cut := 1 / 2, nseg := 2, nsegFwd := 1, nsegBck := 1 },
    rfl, rfl, by norm_num, ?_⟩
  intro u hu
  simp only [triples, List.mem_cons, List.not_mem_nil, or_false] at hu
  rcases hu with rfl | rfl
  · intro h; have := congrArg V3.x h; norm_num at this
  · intro h; have := congrArg V3.y h; norm_num at this

end Kep3.SF
