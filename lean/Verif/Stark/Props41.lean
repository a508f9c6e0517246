/-
Property C41: `stark_problem` does not remember earlier calls; zero mass; layout of the
sensitivities.
-/
import Verif.Stark.Model
import Mathlib.Analysis.Calculus.Deriv.Basic
import Mathlib.Analysis.Calculus.Deriv.Add
import Mathlib.Analysis.Calculus.Deriv.Mul
import Mathlib.Tactic.Ring
import Mathlib.Tactic.FinCases

namespace Kep3.Stark

variable {F : Type}

/-- The parameters as the equations of motion read them: gravity parameter, effective velocity,
thrust. -/
def parsOf (mu veff : F) (u : Fin 3 → F) : Fin 5 → F := ![mu, veff, u 0, u 1, u 2]

theorem setThrust_pars {n : ℕ} (a : Integ F n) (u : Fin 3 → F) :
    (a.setThrust u).pars = parsOf (a.pars 0) (a.pars 1) u := by
  funext i
  fin_cases i <;> simp [Integ.setThrust, Integ.setPar, parsOf, Function.update]

theorem copySens_ok (zero : F) (st : Fin 77 → F) (n : ℕ) (hn : n ≤ 7) :
    copySens zero st n = .ok
      (fun k => if k.1 / 7 < n then st ⟨7 + 10 * (k.1 / 7) + k.1 % 7, by omega⟩ else zero,
       fun k => if k.1 / 3 < n then st ⟨14 + 10 * (k.1 / 3) + k.1 % 3, by omega⟩ else zero) := by
  induction n with
  | zero => simp [copySens]
  | succ n ih =>
    have ih := ih (by omega)
    unfold copySens at ih ⊢
    rw [List.range_succ, List.foldlM_append, ih]
    simp only [Res.ok_bind, List.foldlM_cons, List.foldlM_nil]
    unfold copySeg
    rw [dif_pos (by omega), dif_pos (by omega)]
    simp only [Res.ok_bind, Res.pure_eq]
    congr 2
    · funext k
      by_cases h : k.1 / 7 < n
      · rw [dif_neg (by omega), if_pos h, if_pos (by omega)]
      · by_cases h' : k.1 / 7 < n + 1
        · rw [dif_pos (by omega), if_pos h']
          congr 2
          omega
        · rw [dif_neg (by omega), if_neg h, if_neg h']
    · funext k
      by_cases h : k.1 / 3 < n
      · rw [dif_neg (by omega), if_pos h, if_pos (by omega)]
      · by_cases h' : k.1 / 3 < n + 1
        · rw [dif_pos (by omega), if_pos h']
          congr 2
          omega
        · rw [dif_neg (by omega), if_neg h, if_neg h']

/-- What is kept between calls. -/
structure Inv (E : Env F) (p : Prob F) : Prop where
  tol : p.ta.tol = (E.fresh p.tol).tol
  tolVar : p.taVar.tol = (E.freshVar p.tol).tol
  mu : p.ta.pars 0 = p.mu
  muVar : p.taVar.pars 0 = p.mu
  veff : p.ta.pars 1 = p.veff
  veffVar : p.taVar.pars 1 = p.veff
  ic : p.varIc = fun i : Fin 70 => (E.freshVar p.tol).state ⟨7 + i, by omega⟩

theorem propagate_run (E : Env F) (x : Fin 7 → F) (u : Fin 3 → F) (tof : F) (p : Prob F) :
    propagate E x u tof p =
      if E.isZero (x 6) then (.err .domainError, p) else
        let out := E.run p.ta.tol (parsOf (p.ta.pars 0) (p.ta.pars 1) u) E.zero x tof
        (if out.1 then .ok out.2.2 else .err .domainError,
          { p with ta := ⟨p.ta.tol, parsOf (p.ta.pars 0) (p.ta.pars 1) u, out.2.1, out.2.2⟩ }) := by
  unfold propagate
  by_cases h : E.isZero (x 6)
  · simp [h, Mut.bind_run]
  · simp only [h, Bool.false_eq_true, if_false, Mut.bind_run, Mut.pure_run, Mut.assign_run, Mut.read_run]
    rw [setThrust_pars]
    have ht : (p.ta.setThrust u).tol = p.ta.tol := rfl
    rw [ht]
    cases hr : (E.run p.ta.tol (parsOf (p.ta.pars 0) (p.ta.pars 1) u) E.zero x tof).1 <;> simp

theorem propagateVar_run (E : Env F) (x : Fin 7 → F) (u : Fin 3 → F) (tof : F) (p : Prob F) :
    propagateVar E x u tof p =
      if E.isZero (x 6) then (.err .domainError, p) else
        let out := E.runVar p.taVar.tol (parsOf (p.taVar.pars 0) (p.taVar.pars 1) u) E.zero
          (withIc x p.varIc) tof
        (if out.1 then .ok (fun i => out.2.2 ⟨i, by omega⟩,
            fun k => out.2.2 ⟨7 + 10 * (k.1 / 7) + k.1 % 7, by omega⟩,
            fun k => out.2.2 ⟨14 + 10 * (k.1 / 3) + k.1 % 3, by omega⟩) else .err .domainError,
          { p with taVar := ⟨p.taVar.tol, parsOf (p.taVar.pars 0) (p.taVar.pars 1) u, out.2.1, out.2.2⟩ }) := by
  unfold propagateVar
  by_cases h : E.isZero (x 6)
  · simp [h, Mut.bind_run]
  · simp only [h, Bool.false_eq_true, if_false, Mut.bind_run, Mut.pure_run, Mut.assign_run, Mut.read_run]
    rw [setThrust_pars]
    have ht : (p.taVar.setThrust u).tol = p.taVar.tol := rfl
    rw [ht]
    have h1 : ∀ k : Fin 49, k.1 / 7 < 7 := fun k => by omega
    have h2 : ∀ k : Fin 21, k.1 / 3 < 7 := fun k => by omega
    cases hr : (E.runVar p.taVar.tol (parsOf (p.taVar.pars 0) (p.taVar.pars 1) u) E.zero
      (withIc x p.varIc) tof).1 <;> simp [Mut.bind_run, copySens_ok _ _ 7 le_rfl, h1, h2]

theorem make_inv (E : Env F) (mu veff tol : F) : Inv E (make E mu veff tol) := by
  constructor <;> simp [make, Integ.setPar, Function.update]

theorem exec_inv (E : Env F) (p : Prob F) (h : Inv E p) (o : Op F) :
    Inv E (o.exec E p) ∧ (o.exec E p).tol = p.tol ∧
      (o.exec E p).mu = (match o with | .setMu m => m | _ => p.mu) ∧
      (o.exec E p).veff = (match o with | .setVeff v => v | _ => p.veff) := by
  obtain ⟨h1, h2, h3, h4, h5, h6, h7⟩ := h
  cases o with
  | setMu m =>
    refine ⟨⟨h1, h2, ?_, ?_, ?_, ?_, h7⟩, rfl, rfl, rfl⟩ <;>
      simp [Op.exec, setMu, Integ.setPar, Function.update, h5, h6]
  | setVeff m =>
    refine ⟨⟨h1, h2, ?_, ?_, ?_, ?_, h7⟩, rfl, rfl, rfl⟩ <;>
      simp [Op.exec, setVeff, Integ.setPar, Function.update, h3, h4]
  | propagate x u tof =>
    simp only [Op.exec, propagate_run]
    split_ifs
    · exact ⟨⟨h1, h2, h3, h4, h5, h6, h7⟩, rfl, rfl, rfl⟩
    all_goals exact ⟨⟨h1, h2, by simpa [parsOf] using h3, h4, by simpa [parsOf] using h5, h6, h7⟩, rfl, rfl, rfl⟩
  | propagateVar x u tof =>
    simp only [Op.exec, propagateVar_run]
    split_ifs
    · exact ⟨⟨h1, h2, h3, h4, h5, h6, h7⟩, rfl, rfl, rfl⟩
    all_goals exact ⟨⟨h1, h2, h3, by simpa [parsOf] using h4, h5, by simpa [parsOf] using h6, h7⟩, rfl, rfl, rfl⟩

/-- The gravity parameter last set. -/
def lastMu (mu : F) (ops : List (Op F)) : F :=
  (ops.filterMap fun | .setMu m => some m | _ => none).getLast?.getD mu

/-- The effective velocity last set. -/
def lastVeff (veff : F) (ops : List (Op F)) : F :=
  (ops.filterMap fun | .setVeff m => some m | _ => none).getLast?.getD veff

theorem getLast?_cons_getD (a b : F) (l : List F) : (a :: l).getLast?.getD b = l.getLast?.getD a := by
  cases l with
  | nil => simp
  | cons c l => simp [List.getLast?_cons_cons, List.getLast?_cons]

theorem history (E : Env F) (ops : List (Op F)) : ∀ p : Prob F, Inv E p →
    Inv E (ops.foldl (Op.exec E) p) ∧ (ops.foldl (Op.exec E) p).tol = p.tol ∧
      (ops.foldl (Op.exec E) p).mu = lastMu p.mu ops ∧
      (ops.foldl (Op.exec E) p).veff = lastVeff p.veff ops := by
  induction ops with
  | nil => intro p h; exact ⟨h, rfl, rfl, rfl⟩
  | cons o ops ih =>
    intro p h
    obtain ⟨i1, i2, i3, i4⟩ := exec_inv E p h o
    obtain ⟨j1, j2, j3, j4⟩ := ih _ i1
    refine ⟨j1, j2.trans i2, ?_, ?_⟩
    · rw [List.foldl_cons, j3, i3]
      unfold lastMu
      cases o <;> simp [getLast?_cons_getD]
    · rw [List.foldl_cons, j4, i4]
      unfold lastVeff
      cases o <;> simp [getLast?_cons_getD]

/-- C41: after any history of calls, propagations answer what a newly constructed problem with the
current gravity parameter, effective velocity and tolerance answers; these are the ones last set,
and the getters report them. -/
theorem C41_history (E : Env F) (mu veff tol : F) (ops : List (Op F)) (x : Fin 7 → F) (u : Fin 3 → F)
    (tof : F) :
    let p := ops.foldl (Op.exec E) (make E mu veff tol)
    (propagate E x u tof p).1 = (propagate E x u tof (make E (lastMu mu ops) (lastVeff veff ops) tol)).1 ∧
    (propagateVar E x u tof p).1 =
      (propagateVar E x u tof (make E (lastMu mu ops) (lastVeff veff ops) tol)).1 ∧
    p.mu = lastMu mu ops ∧ p.veff = lastVeff veff ops ∧ p.tol = tol := by
  intro p
  obtain ⟨I, ht, hm, hv⟩ := history E ops _ (make_inv E mu veff tol)
  have J := make_inv E (lastMu mu ops) (lastVeff veff ops) tol
  change p.tol = tol at ht
  change p.mu = lastMu mu ops at hm
  change p.veff = lastVeff veff ops at hv
  change Inv E p at I
  refine ⟨?_, ?_, hm, hv, ht⟩
  · rw [propagate_run, propagate_run, I.tol, J.tol, I.mu, J.mu, I.veff, J.veff, ht, hm, hv]
    split_ifs <;> rfl
  · rw [propagateVar_run, propagateVar_run, I.tolVar, J.tolVar, I.muVar, J.muVar, I.veffVar, J.veffVar,
      I.ic, J.ic, ht, hm, hv]
    split_ifs <;> rfl

/-- C41: a zero mass is refused by both functions with a `domain_error`, and the object is left as
it was. -/
theorem C41_mass (E : Env F) (p : Prob F) (x : Fin 7 → F) (u : Fin 3 → F) (tof : F)
    (h : E.isZero (x 6) = true) : propagate E x u tof p = (.err .domainError, p) ∧
      propagateVar E x u tof p = (.err .domainError, p) := by
  rw [propagate_run, propagateVar_run, if_pos h, if_pos h]
  exact ⟨rfl, rfl⟩

/-- C41: with any other mass, after any history, `propagate` runs the cached integrator of the
tolerance from time zero and the given state, with the current gravity parameter and effective
velocity and the given thrust; it returns the final state, or throws `domain_error` when the
final time is not reached. -/
theorem C41_result (E : Env F) (mu veff tol : F) (ops : List (Op F)) (x : Fin 7 → F) (u : Fin 3 → F)
    (tof : F) (h : E.isZero (x 6) = false) :
    let out := E.run (E.fresh tol).tol ![lastMu mu ops, lastVeff veff ops, u 0, u 1, u 2] E.zero x tof
    (propagate E x u tof (ops.foldl (Op.exec E) (make E mu veff tol))).1 =
      if out.1 then .ok out.2.2 else .err .domainError := by
  intro out
  rw [(C41_history E mu veff tol ops x u tof).1, propagate_run, if_neg (by simp [h])]
  have J := make_inv E (lastMu mu ops) (lastVeff veff ops) tol
  rw [J.tol, J.mu, J.veff]
  rfl

/-- What heyoka promises, in real arithmetic: the plain integrator follows the flow `φ` of the
equations of motion (parameters `mu, veff, u`), the variational one follows the flow together
with its partial derivatives, variable `7 + 10 i + j` being the one of component `i` with
respect to component `j` of the state (`j < 7`) or of the thrust (`j = 7, 8, 9`), if it is
started from the identity.  Failures are allowed, but not of one integrator alone. -/
structure Exact (E : Env ℝ) (φ : ℝ → ℝ → (Fin 7 → ℝ) → (Fin 3 → ℝ) → ℝ → Fin 7 → ℝ) : Prop where
  zero : E.zero = 0
  isZero : ∀ x, E.isZero x = true ↔ x = 0
  run : ∀ tol mu veff u x t, (E.run tol (parsOf mu veff u) 0 x t).1 = true →
    (E.run tol (parsOf mu veff u) 0 x t).2.2 = φ mu veff x u t
  ic : ∀ tol (i : Fin 7) (j : Fin 10), (E.freshVar tol).state ⟨7 + 10 * i + j, by omega⟩ = if i.1 = j.1 then 1 else 0
  runVar : ∀ tol mu veff u x t (st : Fin 77 → ℝ), (∀ i : Fin 7, st ⟨i, by omega⟩ = x i) →
    (∀ (i : Fin 7) (j : Fin 10), st ⟨7 + 10 * i + j, by omega⟩ = if i.1 = j.1 then 1 else 0) →
    (E.runVar tol (parsOf mu veff u) 0 st t).1 = true →
    (∀ i : Fin 7, (E.runVar tol (parsOf mu veff u) 0 st t).2.2 ⟨i, by omega⟩ = φ mu veff x u t i) ∧
    (∀ (i j : Fin 7), HasDerivAt (fun s => φ mu veff (Function.update x j s) u t i)
      ((E.runVar tol (parsOf mu veff u) 0 st t).2.2 ⟨7 + 10 * i + j, by omega⟩) (x j)) ∧
    (∀ (i : Fin 7) (j : Fin 3), HasDerivAt (fun s => φ mu veff x (Function.update u j s) t i)
      ((E.runVar tol (parsOf mu veff u) 0 st t).2.2 ⟨7 + 10 * i + (7 + j), by omega⟩) (u j))

/-- C41: after any history, `propagate` and `propagate_var` return the same state, the flow of the
current parameters, and the sensitivities are the partial derivatives of that flow, row by row:
element `7 i + j` of the first array with respect to state component `j`, element `3 i + j` of the
second with respect to thrust component `j`. -/
theorem C41_sensitivities (E : Env ℝ) (φ) (hE : Exact E φ) (mu veff tol : ℝ) (ops : List (Op ℝ))
    (x : Fin 7 → ℝ) (u : Fin 3 → ℝ) (tof : ℝ) (y y' : Fin 7 → ℝ) (dxdx : Fin 49 → ℝ) (dxdu : Fin 21 → ℝ)
    (h1 : (propagate E x u tof (ops.foldl (Op.exec E) (make E mu veff tol))).1 = .ok y)
    (h2 : (propagateVar E x u tof (ops.foldl (Op.exec E) (make E mu veff tol))).1 = .ok (y', dxdx, dxdu)) :
    y = φ (lastMu mu ops) (lastVeff veff ops) x u tof ∧ y' = y ∧
    (∀ i j : Fin 7, HasDerivAt (fun s => φ (lastMu mu ops) (lastVeff veff ops) (Function.update x j s) u tof i)
      (dxdx ⟨7 * i + j, by omega⟩) (x j)) ∧
    (∀ (i : Fin 7) (j : Fin 3),
      HasDerivAt (fun s => φ (lastMu mu ops) (lastVeff veff ops) x (Function.update u j s) tof i)
        (dxdu ⟨3 * i + j, by omega⟩) (u j)) := by
  obtain ⟨k1, k2, -⟩ := C41_history E mu veff tol ops x u tof
  rw [k1, propagate_run] at h1
  rw [k2, propagateVar_run] at h2
  have J := make_inv E (lastMu mu ops) (lastVeff veff ops) tol
  rw [J.tol, J.mu, J.veff] at h1
  rw [J.tolVar, J.muVar, J.veffVar, J.ic] at h2
  generalize lastMu mu ops = mu' at *
  generalize lastVeff veff ops = veff' at *
  have e1 : (make E mu' veff' tol).mu = mu' := rfl
  have e2 : (make E mu' veff' tol).veff = veff' := rfl
  have e3 : (make E mu' veff' tol).tol = tol := rfl
  rw [e1, e2, e3, hE.zero] at h1 h2
  by_cases hz : E.isZero (x 6) = true
  · rw [if_pos hz] at h1; simp at h1
  rw [if_neg hz] at h1 h2
  simp only at h1 h2
  by_cases r1 : (E.run (E.fresh tol).tol (parsOf mu' veff' u) 0 x tof).1 = true
  swap
  · rw [if_neg r1] at h1; simp at h1
  obtain ⟨st, hst⟩ : ∃ st, st = withIc x fun i : Fin 70 => (E.freshVar tol).state ⟨7 + i, by omega⟩ := ⟨_, rfl⟩
  rw [← hst] at h2
  by_cases r2 : (E.runVar (E.freshVar tol).tol (parsOf mu' veff' u) 0 st tof).1 = true
  swap
  · rw [if_neg r2] at h2; simp at h2
  rw [if_pos r1] at h1
  rw [if_pos r2] at h2
  have hs1 : ∀ i : Fin 7, st ⟨i, by omega⟩ = x i := by
    intro i
    rw [hst]
    unfold withIc
    rw [dif_pos i.2]
  have hs2 : ∀ (i : Fin 7) (j : Fin 10), st ⟨7 + 10 * i + j, by omega⟩ = if i.1 = j.1 then 1 else 0 := by
    intro i j
    rw [hst, ← hE.ic tol i j]
    unfold withIc
    have c : ¬ 7 + 10 * i.1 + j.1 < 7 := by omega
    rw [dif_neg c]
    have d : 7 + (7 + 10 * i.1 + j.1 - 7) = 7 + 10 * i.1 + j.1 := by omega
    simp only [d]
  obtain ⟨f1, f2, f3⟩ := hE.runVar (E.freshVar tol).tol mu' veff' u x tof st hs1 hs2 r2
  have f0 := hE.run _ _ _ _ _ _ r1
  obtain rfl := Res.ok.inj h1
  have h2' := Res.ok.inj h2
  simp only [Prod.mk.injEq] at h2'
  obtain ⟨rfl, rfl, rfl⟩ := h2'
  refine ⟨f0, ?_, ?_, ?_⟩
  · rw [f0]; funext i; exact f1 i
  · intro i j
    have := f2 i j
    convert this using 3
    have a : (7 * i.1 + j.1) / 7 = i := by omega
    have b : (7 * i.1 + j.1) % 7 = j := by omega
    simp only [a, b]
  · intro i j
    have := f3 i j
    convert this using 3
    have a : (3 * i.1 + j.1) / 3 = i := by omega
    have b : (3 * i.1 + j.1) % 3 = j := by omega
    have c : 14 + 10 * i.1 + j.1 = 7 + 10 * i.1 + (7 + j.1) := by omega
    simp only [a, b, c]

/-! ### A concrete environment -/

/-- A flow without gravity: thrust as velocity. -/
def exFlow (_ _ : ℝ) (x : Fin 7 → ℝ) (u : Fin 3 → ℝ) (t : ℝ) (i : Fin 7) : ℝ :=
  x i + if h : i.1 < 3 then t * u ⟨i, h⟩ else 0

/-- Integrators of `exFlow` that fail for negative times. -/
noncomputable def exEnv : Env ℝ where
  zero := 0
  isZero x := decide (x = 0)
  fresh tol := ⟨tol, ![1, 1, 0, 0, 0], 0, fun _ => 1⟩
  freshVar tol := ⟨tol, ![1, 1, 0, 0, 1 / 10 ^ 32], 0, fun k =>
    if k.1 < 7 then 1 else if (k.1 - 7) / 10 = (k.1 - 7) % 10 then 1 else 0⟩
  run _ pars _ x t := (decide (0 ≤ t), t, exFlow 0 0 x ![pars 2, pars 3, pars 4] t)
  runVar _ pars _ st t := (decide (0 ≤ t), t, fun k =>
    if h : k.1 < 7 then exFlow 0 0 (fun i => st ⟨i, by omega⟩) ![pars 2, pars 3, pars 4] t ⟨k, h⟩
    else if (k.1 - 7) / 10 = (k.1 - 7) % 10 then 1
    else if (k.1 - 7) % 10 = 7 + (k.1 - 7) / 10 then t else 0)

/-- The hypothesis `Exact` can be met. -/
theorem exEnv_exact : Exact exEnv exFlow where
  zero := rfl
  isZero x := by simp [exEnv]
  run tol mu veff u x t _ := by
    have hu : ![parsOf mu veff u 2, parsOf mu veff u 3, parsOf mu veff u 4] = u := by
      funext i
      fin_cases i <;> rfl
    show exFlow 0 0 x ![parsOf mu veff u 2, parsOf mu veff u 3, parsOf mu veff u 4] t = _
    rw [hu]
    rfl
  ic tol i j := by
    have a : (7 + 10 * i.1 + j.1 - 7) / 10 = i := by omega
    have b : (7 + 10 * i.1 + j.1 - 7) % 10 = j := by omega
    have c : ¬ 7 + 10 * i.1 + j.1 < 7 := by omega
    simp only [exEnv, a, b, c, if_false]
  runVar tol mu veff u x t st h1 h2 _ := by
    have hx : (fun i : Fin 7 => st ⟨i, by omega⟩) = x := funext h1
    have hu : ![parsOf mu veff u 2, parsOf mu veff u 3, parsOf mu veff u 4] = u := by
      funext i
      fin_cases i <;> rfl
    refine ⟨?_, ?_, ?_⟩
    · intro i
      show (if h : i.1 < 7 then _ else _) = _
      rw [dif_pos i.2, hx, hu]
      rfl
    · intro i j
      have a : (7 + 10 * i.1 + j.1 - 7) / 10 = i := by omega
      have b : (7 + 10 * i.1 + j.1 - 7) % 10 = j := by omega
      have c : ¬ 7 + 10 * i.1 + j.1 < 7 := by omega
      have d : ¬ j.1 = 7 + i.1 := by omega
      simp only [exEnv, a, b, c, d, dif_neg, not_false_eq_true, if_false]
      unfold exFlow
      by_cases e : i = j
      · subst e
        simp only [Function.update_self, if_true]
        exact (hasDerivAt_id' _).add_const _
      · have : ¬ i.1 = j.1 := fun h => e (Fin.ext h)
        simp only [Function.update_of_ne e, this, if_false]
        exact hasDerivAt_const _ _
    · intro i j
      have a : (7 + 10 * i.1 + (7 + j.1) - 7) / 10 = i := by omega
      have b : (7 + 10 * i.1 + (7 + j.1) - 7) % 10 = 7 + j := by omega
      have c : ¬ 7 + 10 * i.1 + (7 + j.1) < 7 := by omega
      have d : ¬ i.1 = 7 + j.1 := by omega
      simp only [exEnv, a, b, c, d, dif_neg, not_false_eq_true, if_false, Nat.add_left_cancel_iff]
      unfold exFlow
      by_cases e : j.1 = i.1
      · have hi : i.1 < 3 := by omega
        have hj : (⟨i.1, hi⟩ : Fin 3) = j := Fin.ext e.symm
        simp only [hi, dif_pos, e, if_true, hj, Function.update_self]
        simpa using (hasDerivAt_id' (u j)).const_mul t |>.const_add (x i)
      · simp only [e, if_false]
        by_cases hi : i.1 < 3
        · have hj : (⟨i.1, hi⟩ : Fin 3) ≠ j := fun h => e (by rw [← h])
          simp only [hi, dif_pos, Function.update_of_ne hj]
          exact hasDerivAt_const _ _
        · simp only [hi, dif_neg, not_false_eq_true]
          exact hasDerivAt_const _ _

/-- C41 on a concrete history: a failed propagation, a change of parameters and a zero mass in
between do not matter. -/
theorem C41_example :
    let ops : List (Op ℝ) := [.propagate (fun _ => 2) ![1, 1, 1] (-1), .setMu 5, .propagateVar 0 ![1, 0, 0] 1]
    let p := ops.foldl (Op.exec exEnv) (make exEnv 1 1 1)
    (propagate exEnv (fun _ => 2) ![1, 1, 1] (-1) (make exEnv 1 1 1)).1 = .err .domainError ∧
    (propagate exEnv (fun _ => 2) ![3, 0, 0] 2 p).1 = .ok ![8, 2, 2, 2, 2, 2, 2] ∧ p.mu = 5 := by
  refine ⟨?_, ?_, ?_⟩
  · rw [propagate_run]
    simp [exEnv]
  · rw [C41_result]
    · simp [exEnv]
      funext i
      fin_cases i <;> simp [exFlow] <;> norm_num
    · simp [exEnv]
  · exact (C41_history exEnv 1 1 1 _ 0 0 0).2.2.1

end Kep3.Stark
