import Verif.HF.Model
import Verif.SF.Props42

/-!
# The computations of the high-fidelity leg depend on the integrators only through their parameters
-/

namespace Kep3.HF

open Kep3
open Kep3.SF (throwIf checkTof checkThrottles checkMaxThrust checkIsp checkMu checkCut checkTol checkNseg
  nsegOf nsegFwdOf usub triple)

variable {F : Type} (E : Env F)

/-- Same tolerance, `mu` and exhaust velocity. -/
def Integ.Same (a b : Integ F) : Prop := a.tol = b.tol ∧ a.mu = b.mu ∧ a.veff = b.veff

/-- ... and same time and state. -/
def Integ.Same' (a b : Integ F) : Prop := a.Same b ∧ a.time = b.time ∧ a.state = b.state

theorem Integ.Same.refl (a : Integ F) : a.Same a := ⟨rfl, rfl, rfl⟩
theorem Integ.Same.symm {a b : Integ F} (h : a.Same b) : b.Same a := ⟨h.1.symm, h.2.1.symm, h.2.2.symm⟩
theorem Integ.Same.trans {a b c : Integ F} (h : a.Same b) (k : b.Same c) : a.Same c :=
  ⟨h.1.trans k.1, h.2.1.trans k.2.1, h.2.2.trans k.2.2⟩

theorem until_rel (t1 : F) {a b : Integ F} (u : V3 F) (h : a.Same' b) :
    (until_ E t1 { a with u := u }).1 = (until_ E t1 { b with u := u }).1 ∧
    (until_ E t1 { a with u := u }).2.Same' (until_ E t1 { b with u := u }).2 := by
  rcases a with ⟨a1, a2, a3, a4, a5, a6⟩
  rcases b with ⟨b1, b2, b3, b4, b5, b6⟩
  obtain ⟨⟨h1, h2, h3⟩, h4, h5⟩ := h
  dsimp only at h1 h2 h3 h4 h5
  subst h1 h2 h3 h4 h5
  exact ⟨rfl, ⟨rfl, rfl, rfl⟩, rfl, rfl⟩

theorem until_same (t1 : F) (a : Integ F) : (until_ E t1 a).2.Same a := by
  unfold until_
  cases E.prop a.tol a.mu a.veff a.u a.time a.state t1 <;> exact ⟨rfl, rfl, rfl⟩

theorem fwdSeg_rel (l : Leg F) (i : ℕ) {a b : Integ F} (h : a.Same' b) :
    (fwdSeg E l i a).1 = (fwdSeg E l i b).1 ∧ (fwdSeg E l i a).2.Same' (fwdSeg E l i b).2 := by
  unfold fwdSeg
  cases thrustAt l.thrusts (i * 3 % 2 ^ 32) with
  | ok u => exact until_rel E _ u h
  | err e => exact ⟨rfl, h⟩
  | ub => exact ⟨rfl, h⟩

theorem bckSeg_rel (l : Leg F) (i : ℕ) {a b : Integ F} (h : a.Same' b) :
    (bckSeg E l i a).1 = (bckSeg E l i b).1 ∧ (bckSeg E l i a).2.Same' (bckSeg E l i b).2 := by
  unfold bckSeg
  cases thrustAt l.thrusts (usub l.nseg (i + 1) * 3 % 2 ^ 32) with
  | ok u => exact until_rel E _ u h
  | err e => exact ⟨rfl, h⟩
  | ub => exact ⟨rfl, h⟩

theorem fwdSeg_same (l : Leg F) (i : ℕ) (a : Integ F) : (fwdSeg E l i a).2.Same a := by
  unfold fwdSeg
  cases thrustAt l.thrusts (i * 3 % 2 ^ 32) with
  | ok u => exact until_same E _ _
  | err e => exact Integ.Same.refl a
  | ub => exact Integ.Same.refl a

theorem bckSeg_same (l : Leg F) (i : ℕ) (a : Integ F) : (bckSeg E l i a).2.Same a := by
  unfold bckSeg
  cases thrustAt l.thrusts (usub l.nseg (i + 1) * 3 % 2 ^ 32) with
  | ok u => exact until_same E _ _
  | err e => exact Integ.Same.refl a
  | ub => exact Integ.Same.refl a

/-- Running the next step on related states after related outcomes. -/
theorem bind_rel {σ τ α β : Type _} {R R' : σ → τ → Prop} {m : Mut σ α} {m' : Mut τ α}
    {k : α → Mut σ β} {k' : α → Mut τ β} {s : σ} {t : τ}
    (h : (m s).1 = (m' t).1 ∧ R (m s).2 (m' t).2)
    (hk : ∀ a s t, R s t → (k a s).1 = (k' a t).1 ∧ R' (k a s).2 (k' a t).2)
    (hR : ∀ s t, R s t → R' s t) :
    ((m >>= k) s).1 = ((m' >>= k') t).1 ∧ R' ((m >>= k) s).2 ((m' >>= k') t).2 := by
  rw [Mut.bind_run, Mut.bind_run]
  revert h
  generalize m s = x
  generalize m' t = y
  rcases x with ⟨x1, x2⟩; rcases y with ⟨y1, y2⟩
  rintro ⟨h1, h2⟩
  dsimp only at h1 h2
  subst h1
  cases x1 with
  | ok a => exact hk a x2 y2 h2
  | err e => exact ⟨rfl, hR _ _ h2⟩
  | ub => exact ⟨rfl, hR _ _ h2⟩

theorem bind_keeps {σ α β : Type _} {P : σ → Prop} {m : Mut σ α} {k : α → Mut σ β} {s : σ}
    (h : P (m s).2) (hk : ∀ a s, P s → P (k a s).2) : P ((m >>= k) s).2 := by
  rw [Mut.bind_run]
  revert h
  generalize m s = x
  rcases x with ⟨x1, x2⟩
  intro h
  cases x1 with
  | ok a => exact hk a x2 h
  | err e => exact h
  | ub => exact h

/-- The outcome of `compute_mismatch_constraints` depends on the integrator only through its
tolerance, `mu` and exhaust velocity, not on its time, state or thrust parameters. -/
theorem mismatchOn_rel (l : Leg F) {a b : Integ F} (h : a.Same b) :
    (mismatchOn E l a).1 = (mismatchOn E l b).1 := by
  unfold mismatchOn
  refine (bind_rel (R := Integ.Same') (R' := fun _ _ => True) ?_ ?_ (fun _ _ _ => trivial)).1
  · exact ⟨rfl, h, rfl, rfl⟩
  intro _ a b hab
  refine bind_rel (R := Integ.Same') (R' := fun _ _ => True)
    ?_ ?_ (fun _ _ _ => trivial)
  · exact forLoop_rel _ _ _ _ Integ.Same' (fun i _ s t hst => fwdSeg_rel E l i hst) _ hab
  intro _ a b hab
  simp only [Mut.read_bind_run, hab.2.2]
  refine bind_rel (R := Integ.Same') (R' := fun _ _ => True) ?_ ?_ (fun _ _ _ => trivial)
  · exact ⟨rfl, hab.1, rfl, rfl⟩
  intro _ a b hab
  refine bind_rel (R := Integ.Same') (R' := fun _ _ => True)
    ?_ ?_ (fun _ _ _ => trivial)
  · exact forLoop_rel _ _ _ _ Integ.Same' (fun i _ s t hst => bckSeg_rel E l i hst) _ hab
  intro _ a b hab
  simp only [Mut.read_bind_run, hab.2.2]
  exact ⟨rfl, trivial⟩

/-- ... and it leaves those parameters as they are. -/
theorem mismatchOn_same (l : Leg F) (a : Integ F) : (mismatchOn E l a).2.Same a := by
  unfold mismatchOn
  refine bind_keeps (P := fun x : Integ F => x.Same a) ?_ ?_
  · exact ⟨rfl, rfl, rfl⟩
  intro _ b hb
  refine bind_keeps (P := fun x : Integ F => x.Same a) ?_ ?_
  · exact forLoop_keeps _ _ _ (fun x : Integ F => x.Same a) (fun i s hs => (fwdSeg_same E l i s).trans hs) hb
  intro _ b hb
  simp only [Mut.read_bind_run]
  refine bind_keeps (P := fun x : Integ F => x.Same a) ?_ ?_
  · exact hb
  intro _ b hb
  refine bind_keeps (P := fun x : Integ F => x.Same a) ?_ ?_
  · exact forLoop_keeps _ _ _ (fun x : Integ F => x.Same a) (fun i s hs => (bckSeg_same E l i s).trans hs) hb
  intro _ b hb
  exact hb

/-- Same, for the working data of the gradients. -/
def GradSt.Rel (a b : GradSt F) : Prop := a.ta.Same' b.ta ∧ a.xf = b.xf ∧ a.sens = b.sens

theorem vuntil_rel (t1 : F) (j : ℕ) {a b : GradSt F} (u : V3 F) (h : a.Rel b) :
    (vuntil E t1 j { a with ta := { a.ta with u := u } }).1 =
      (vuntil E t1 j { b with ta := { b.ta with u := u } }).1 ∧
    (vuntil E t1 j { a with ta := { a.ta with u := u } }).2.Rel
      (vuntil E t1 j { b with ta := { b.ta with u := u } }).2 := by
  rcases a with ⟨⟨a1, a2, a3, a4, a5, a6⟩, a7, a8⟩
  rcases b with ⟨⟨b1, b2, b3, b4, b5, b6⟩, b7, b8⟩
  obtain ⟨⟨⟨h1, h2, h3⟩, h4, h5⟩, h6, h7⟩ := h
  dsimp only at h1 h2 h3 h4 h5 h6 h7
  subst h1 h2 h3 h4 h5 h6 h7
  exact ⟨rfl, ⟨⟨rfl, rfl, rfl⟩, rfl, rfl⟩, rfl, rfl⟩

theorem vuntil_same (t1 : F) (j : ℕ) (a : GradSt F) : (vuntil E t1 j a).2.ta.Same a.ta := by
  unfold vuntil
  cases E.vprop a.ta.tol a.ta.mu a.ta.veff a.ta.u a.ta.time a.ta.state t1 with
  | none => exact ⟨rfl, rfl, rfl⟩
  | some x =>
    dsimp only
    cases setAt a.xf j x.1 <;> cases setAt a.sens j x.2 <;> exact ⟨rfl, rfl, rfl⟩

theorem vfwdSeg_rel (l : Leg F) (i : ℕ) {a b : GradSt F} (h : a.Rel b) :
    (vfwdSeg E l i a).1 = (vfwdSeg E l i b).1 ∧ (vfwdSeg E l i a).2.Rel (vfwdSeg E l i b).2 := by
  unfold vfwdSeg
  cases thrustAt l.thrusts (i * 3 % 2 ^ 32) with
  | ok u => exact vuntil_rel E _ _ u h
  | err e => exact ⟨rfl, h⟩
  | ub => exact ⟨rfl, h⟩

theorem vbckSeg_rel (l : Leg F) (i : ℕ) {a b : GradSt F} (h : a.Rel b) :
    (vbckSeg E l i a).1 = (vbckSeg E l i b).1 ∧ (vbckSeg E l i a).2.Rel (vbckSeg E l i b).2 := by
  unfold vbckSeg
  cases thrustAt l.thrusts (usub l.nseg (i + 1) * 3 % 2 ^ 32) with
  | ok u => exact vuntil_rel E _ _ u h
  | err e => exact ⟨rfl, h⟩
  | ub => exact ⟨rfl, h⟩

theorem vfwdSeg_same (l : Leg F) (i : ℕ) (a : GradSt F) : (vfwdSeg E l i a).2.ta.Same a.ta := by
  unfold vfwdSeg
  cases thrustAt l.thrusts (i * 3 % 2 ^ 32) with
  | ok u => exact vuntil_same E _ _ _
  | err e => exact Integ.Same.refl _
  | ub => exact Integ.Same.refl _

theorem vbckSeg_same (l : Leg F) (i : ℕ) (a : GradSt F) : (vbckSeg E l i a).2.ta.Same a.ta := by
  unfold vbckSeg
  cases thrustAt l.thrusts (usub l.nseg (i + 1) * 3 % 2 ^ 32) with
  | ok u => exact vuntil_same E _ _ _
  | err e => exact Integ.Same.refl _
  | ub => exact Integ.Same.refl _

/-- The two loops of `compute_all_gradients`. -/
def gradLoops (l : Leg F) : Mut (GradSt F) Unit := do
  Mut.assign fun g => { g with ta := { g.ta with time := E.ofNat 0, state := l.rvms } }
  forLoop l.nsegFwd (vfwdSeg E l)
  Mut.assign fun g => { g with ta := { g.ta with time := l.tof, state := l.rvmf } }
  forLoop l.nsegBck (vbckSeg E l)

theorem gradLoops_rel (l : Leg F) {a b : GradSt F} (h : a.ta.Same b.ta) (h1 : a.xf = b.xf)
    (h2 : a.sens = b.sens) :
    (gradLoops E l a).1 = (gradLoops E l b).1 ∧ (gradLoops E l a).2.Rel (gradLoops E l b).2 := by
  unfold gradLoops
  refine bind_rel (R := GradSt.Rel) (R' := GradSt.Rel) ?_ ?_ (fun _ _ h => h)
  · exact ⟨rfl, ⟨h, rfl, rfl⟩, h1, h2⟩
  intro _ a b hab
  refine bind_rel (R := GradSt.Rel) (R' := GradSt.Rel)
    ?_ ?_ (fun _ _ h => h)
  · exact forLoop_rel _ _ _ _ GradSt.Rel (fun i _ s t hst => vfwdSeg_rel E l i hst) _ hab
  intro _ a b hab
  refine bind_rel (R := GradSt.Rel) (R' := GradSt.Rel) ?_ ?_ (fun _ _ h => h)
  · exact ⟨rfl, ⟨hab.1.1, rfl, rfl⟩, hab.2.1, hab.2.2⟩
  intro _ a b hab
  exact forLoop_rel _ _ _ _ GradSt.Rel (fun i _ s t hst => vbckSeg_rel E l i hst) _ hab

theorem gradLoops_same (l : Leg F) (a : GradSt F) : (gradLoops E l a).2.ta.Same a.ta := by
  unfold gradLoops
  refine bind_keeps (P := fun x : GradSt F => x.ta.Same a.ta) ?_ ?_
  · exact ⟨rfl, rfl, rfl⟩
  intro _ b hb
  refine bind_keeps (P := fun x : GradSt F => x.ta.Same a.ta) ?_ ?_
  · exact forLoop_keeps _ _ _ (fun x : GradSt F => x.ta.Same a.ta) (fun i s hs => (vfwdSeg_same E l i s).trans hs) hb
  intro _ b hb
  refine bind_keeps (P := fun x : GradSt F => x.ta.Same a.ta) ?_ ?_
  · exact hb
  intro _ b hb
  exact forLoop_keeps _ _ _ (fun x : GradSt F => x.ta.Same a.ta)
    (fun i s hs => (vbckSeg_same E l i s).trans hs) hb

/-- What `compute_all_gradients` does after the two loops. -/
def gradTail (l : Leg F) (g : GradSt F) : Res (List (Sens F) × List (St F)) := do
  let x0 ← match startStates l g.xf (List.replicate l.nseg none) with
    | (.ok _, a) => Res.ok a
    | (.err e, _) => .err e
    | (.ub, _) => .ub
  let f ← (List.range l.nseg).mapM fun i => do
    let u ← triple l.throttles (i * 3) (i * 3 + 1) (i * 3 + 2)
    let x ← getAt x0 i
    Res.ok (stateDerivative E l x u)
  let s ← (List.range l.nseg).mapM fun i => getAt g.sens i
  return (s, f)

theorem allGradientsOn_eq (l : Leg F) (ta : Integ F) :
    allGradientsOn E l ta =
      match gradLoops E l ⟨ta, List.replicate l.nseg none, List.replicate l.nseg none⟩ with
      | (.ok _, g) => (gradTail E l g, g.ta)
      | (.err e, g) => (.err e, g.ta)
      | (.ub, g) => (.ub, g.ta) := rfl

/-- The outcome of `compute_all_gradients` depends on `m_tas_var` only through its tolerance, `mu` and
exhaust velocity. -/
theorem allGradientsOn_rel (l : Leg F) {a b : Integ F} (h : a.Same b) :
    (allGradientsOn E l a).1 = (allGradientsOn E l b).1 := by
  rw [allGradientsOn_eq, allGradientsOn_eq]
  have := gradLoops_rel E l (a := ⟨a, List.replicate l.nseg none, List.replicate l.nseg none⟩)
    (b := ⟨b, List.replicate l.nseg none, List.replicate l.nseg none⟩) h rfl rfl
  revert this
  generalize gradLoops E l ⟨a, List.replicate l.nseg none, List.replicate l.nseg none⟩ = x
  generalize gradLoops E l ⟨b, List.replicate l.nseg none, List.replicate l.nseg none⟩ = y
  rcases x with ⟨x1, x2⟩; rcases y with ⟨y1, y2⟩
  rintro ⟨h1, h2⟩
  dsimp only at h1 h2
  subst h1
  cases x1 with
  | ok u =>
    show gradTail E l x2 = gradTail E l y2
    unfold gradTail
    rw [h2.2.1, h2.2.2]
  | err e => rfl
  | ub => rfl

theorem allGradientsOn_same (l : Leg F) (a : Integ F) : (allGradientsOn E l a).2.Same a := by
  rw [allGradientsOn_eq]
  have := gradLoops_same E l ⟨a, List.replicate l.nseg none, List.replicate l.nseg none⟩
  revert this
  generalize gradLoops E l ⟨a, List.replicate l.nseg none, List.replicate l.nseg none⟩ = x
  rcases x with ⟨x1, x2⟩
  intro h
  cases x1 <;> exact h

end Kep3.HF
