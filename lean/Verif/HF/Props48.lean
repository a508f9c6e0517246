import Verif.HF.Lemmas

/-!
# C48: are the parameters seen by the integrators the parameters of the leg?
-/

namespace Kep3.HF

open Kep3
open Kep3.SF (throwIf checkTof checkThrottles checkMaxThrust checkIsp checkMu checkCut checkTol checkNseg
  nsegOf nsegFwdOf usub triple)

section
variable (fl : ℚ → ℚ) (E : Env Dbl)

/-- The leg a user gets by constructing one with the current data of `l`. -/
def Leg.rebuilt (l : Leg Dbl) : Res (Leg Dbl) :=
  Leg.make fl E l.rvms l.throttles l.rvmf l.tof l.maxThrust l.isp l.mu l.cut l.tol

/-- `l` computes what a fresh leg with its current data computes. -/
def Leg.Faithful (l : Leg Dbl) : Prop :=
  ∃ fresh, l.rebuilt fl E = .ok fresh ∧
    (computeMismatch E l).1 = (computeMismatch E fresh).1 ∧
    (computeConstraints E l).1 = (computeConstraints E fresh).1 ∧
    (computeAllGradients E l).1 = (computeAllGradients E fresh).1

/-- Calls that change none of `mu`, `isp`, `tol` away from the given values (and the maximum thrust
only together with the throttles). -/
def Op.tame (mu isp tol : Dbl) : Op → Prop
  | .maxThrust _ | .isp _ | .mu _ | .tol _ => False
  | .setRv _ _ _ _ _ _ _ i m _ t => i = isp ∧ m = mu ∧ t = tol
  | .set _ _ _ _ _ i m _ t => i = isp ∧ m = mu ∧ t = tol
  | _ => True

/-- One of the three `set` overloads. -/
def Op.isSet : Op → Bool
  | .setRv .. | .set .. | .set4 .. => true
  | _ => false

/-- The consistency the constructor establishes. -/
structure Good (mu isp tol : Dbl) (l : Leg Dbl) : Prop where
  checks : sanityChecks l.throttles l.tof l.maxThrust l.isp l.mu l.cut l.tol l.nseg l.nsegFwd l.nsegBck = .ok ()
  nseg : l.nseg = nsegOf l.throttles.length
  fwd : nsegFwdOf fl l.nseg l.cut = .ok l.nsegFwd
  bck : l.nsegBck = usub l.nseg l.nsegFwd
  thr : l.thrusts = thrustsOf E l.maxThrust l.throttles
  tas : l.tas.Same (Integ.make E tol mu isp)
  tasVar : l.tasVar.Same (Integ.make E tol mu isp)
  mu : l.mu = mu
  isp : l.isp = isp
  tol : l.tol = tol

theorem ok_bind_iff {a b : Res Unit} : (a >>= fun _ => b) = .ok () ↔ a = .ok () ∧ b = .ok () := by
  cases a with
  | ok u => exact ⟨fun h => ⟨rfl, h⟩, fun h => h.2⟩
  | err e => exact ⟨fun h => (nomatch h), fun h => (nomatch h.1)⟩
  | ub => exact ⟨fun h => (nomatch h), fun h => (nomatch h.1)⟩

theorem sanity_iff {t : List Dbl} {tof mt isp mu cut tol : Dbl} {n f b : ℕ} :
    sanityChecks t tof mt isp mu cut tol n f b = .ok () ↔
      checkThrottles t = .ok () ∧ checkTof tof = .ok () ∧ checkMaxThrust mt = .ok () ∧ checkIsp isp = .ok () ∧
      checkMu mu = .ok () ∧ checkCut cut = .ok () ∧ checkTol tol = .ok () ∧ checkNseg n f b = .ok () := by
  unfold sanityChecks
  simp only [ok_bind_iff]

theorem make_eq {rvms rvmf : St Dbl} {t : List Dbl} {tof mt isp mu cut tol : Dbl} {l : Leg Dbl}
    (h : Leg.make fl E rvms t rvmf tof mt isp mu cut tol = .ok l) :
    ∃ f, nsegFwdOf fl (nsegOf t.length) cut = .ok f ∧
      sanityChecks t tof mt isp mu cut tol (nsegOf t.length) f (usub (nsegOf t.length) f) = .ok () ∧
      l = { rvms := rvms, throttles := t, thrusts := thrustsOf E mt t, rvmf := rvmf,
            tof := tof, maxThrust := mt, isp := isp, mu := mu, cut := cut, tol := tol,
            nseg := nsegOf t.length, nsegFwd := f, nsegBck := usub (nsegOf t.length) f,
            tas := Integ.make E tol mu isp, tasVar := Integ.make E tol mu isp } := by
  unfold Leg.make at h
  cases hf : nsegFwdOf fl (nsegOf t.length) cut with
  | ok f =>
    simp only [hf, Res.ok_bind] at h
    cases hc : sanityChecks t tof mt isp mu cut tol (nsegOf t.length) f (usub (nsegOf t.length) f) with
    | ok u =>
      rw [hc] at h
      injection h with h
      exact ⟨f, rfl, hc, h.symm⟩
    | err e => rw [hc] at h; cases h
    | ub => rw [hc] at h; cases h
  | err e => simp only [hf] at h; cases h
  | ub => simp only [hf] at h; cases h

theorem make_good {rvms rvmf : St Dbl} {t : List Dbl} {tof mt isp mu cut tol : Dbl} {l : Leg Dbl}
    (h : Leg.make fl E rvms t rvmf tof mt isp mu cut tol = .ok l) : Good fl E mu isp tol l := by
  obtain ⟨f, hf, hc, rfl⟩ := make_eq fl E h
  exact ⟨hc, rfl, hf, rfl, rfl, Integ.Same.refl _, Integ.Same.refl _, rfl, rfl, rfl⟩

variable {fl E}

theorem Good.rebuilt {mu isp tol : Dbl} {l : Leg Dbl} (h : Good fl E mu isp tol l) :
    l.rebuilt fl E = .ok { l with tas := Integ.make E tol mu isp, tasVar := Integ.make E tol mu isp } := by
  have hf := h.fwd
  have hc := h.checks
  have hs := h.nseg
  have hb := h.bck
  unfold Leg.rebuilt Leg.make
  rw [hs] at hf hc hb
  simp only [hf, Res.ok_bind]
  rw [hb] at hc
  rw [hc]
  simp only [Res.ok_bind, Res.pure_eq, h.mu, h.isp, h.tol, ← h.thr]
  congr 1
  rcases l with ⟨⟩
  simp_all

theorem mismatch_congr {l l' : Leg Dbl} (h : { l with tas := l'.tas, tasVar := l'.tasVar } = l')
    (ht : l.tas.Same l'.tas) : (computeMismatch E l).1 = (computeMismatch E l').1 := by
  rw [← h]
  exact mismatchOn_rel E l ht

theorem constraints_congr {l l' : Leg Dbl} (h : { l with tas := l'.tas, tasVar := l'.tasVar } = l')
    (ht : l.tas.Same l'.tas) : (computeConstraints E l).1 = (computeConstraints E l').1 := by
  unfold computeConstraints
  refine (bind_rel (R := fun a b : Leg Dbl => { a with tas := b.tas, tasVar := b.tasVar } = b)
    (R' := fun _ _ => True) ?_ ?_ (fun _ _ _ => trivial)).1
  · refine ⟨mismatch_congr h ht, ?_⟩
    rw [← h]
    rfl
  · intro a s t hst
    have : throttleCon E s = throttleCon E t := by rw [← hst]; rfl
    simp only [Mut.read_bind_run, this]
    cases throttleCon E t <;> exact ⟨rfl, trivial⟩

theorem gradients_congr {l l' : Leg Dbl} (h : { l with tas := l'.tas, tasVar := l'.tasVar } = l')
    (ht : l.tasVar.Same l'.tasVar) : (computeAllGradients E l).1 = (computeAllGradients E l').1 := by
  rw [← h]
  exact allGradientsOn_rel E l ht

theorem Good.faithful {mu isp tol : Dbl} {l : Leg Dbl} (h : Good fl E mu isp tol l) : l.Faithful fl E :=
  ⟨_, h.rebuilt, mismatch_congr rfl h.tas, constraints_congr rfl h.tas, gradients_congr rfl h.tasVar⟩

theorem call_cases {α : Type} {r : Res Unit} {k : Unit → Mut (Leg Dbl) α} {l : Leg Dbl}
    {P : Res α × Leg Dbl → Prop} (hub : ∀ l, P (.ub, l)) (herr : ∀ e, P (.err e, l))
    (hok : r = .ok () → P (k () l)) : P ((Mut.call r >>= k) l) := by
  cases r with
  | ok u => exact hok rfl
  | err e => exact herr e
  | ub => exact hub l

theorem read_cases {α β : Type} {g : Leg Dbl → Res α} {k : α → Mut (Leg Dbl) β} {l : Leg Dbl}
    {P : Res β × Leg Dbl → Prop} (hub : ∀ l, P (.ub, l)) (herr : ∀ e, g l = .err e → P (.err e, l))
    (hok : ∀ a, g l = .ok a → P (k a l)) : P ((Mut.read g >>= k) l) := by
  rw [Mut.read_bind_run]
  cases h : g l with
  | ok u => exact hok u h
  | err e => exact herr e h
  | ub => exact hub l

/-- Outcome of a step: undefined behaviour, or a consistent leg (unless a `set` threw). -/
def StepOk (fl : ℚ → ℚ) (E : Env Dbl) (mu isp tol : Dbl) (b : Bool) (x : Res Unit × Leg Dbl) : Prop :=
  match x.1 with
  | .ub => True
  | .ok _ => Good fl E mu isp tol x.2
  | .err _ => b = true ∨ Good fl E mu isp tol x.2

theorem nsegFwd_ne_err {fl : ℚ → ℚ} {n : ℕ} {c : Dbl} {e : Exc} : nsegFwdOf fl n c ≠ .err e := by
  unfold nsegFwdOf Dbl.castUnsigned
  split
  · split <;> simp
  · simp

theorem checkNseg_usub {n f : ℕ} (hn : n < 2 ^ 32) (hf : f < 2 ^ 32) : checkNseg n f (usub n f) = .ok () := by
  unfold checkNseg usub throwIf
  rw [if_neg]
  simp only [bne_iff_ne, ne_eq, not_not]
  omega

theorem nsegFwd_lt {fl : ℚ → ℚ} {n f : ℕ} {c : Dbl} (h : nsegFwdOf fl n c = .ok f) : f < 2 ^ 32 := by
  unfold nsegFwdOf Dbl.castUnsigned at h
  split at h
  · split at h
    · rename_i q _ hq
      injection h with h
      subst h
      have h1 : ⌊q⌋ < 2 ^ 32 := Int.floor_lt.2 (by push_cast; exact hq.2)
      omega
    · cases h
  · cases h

theorem nsegOf_lt (n : ℕ) : nsegOf n < 2 ^ 32 := by unfold nsegOf; omega

theorem throttles_step {mu isp tol : Dbl} {l : Leg Dbl} (h : Good fl E mu isp tol l) {t : List Dbl}
    (ht : checkThrottles t = .ok ()) (b : Bool) :
    StepOk fl E mu isp tol b
      ((do Mut.assign fun l => { l with throttles := t }
           updateSegs fl
           updateThrusts E : Mut (Leg Dbl) Unit) l) := by
  unfold updateSegs
  simp only [Mut.assign_bind_run]
  cases hf : nsegFwdOf fl (nsegOf t.length) l.cut with
  | err e => exact absurd hf nsegFwd_ne_err
  | ub => rw [Mut.bind_run]; simp only [Mut.assign_bind_run, Mut.read_bind_run, hf]; trivial
  | ok f =>
    rw [Mut.bind_run]; simp only [Mut.assign_bind_run, Mut.read_bind_run, hf, Mut.assign_run]
    have hc := sanity_iff.1 h.checks
    refine ⟨sanity_iff.2 ⟨ht, hc.2.1, hc.2.2.1, hc.2.2.2.1, hc.2.2.2.2.1, hc.2.2.2.2.2.1, hc.2.2.2.2.2.2.1, ?_⟩,
      rfl, hf, rfl, rfl, h.tas, h.tasVar, h.mu, h.isp, h.tol⟩
    exact checkNseg_usub (nsegOf_lt _) (nsegFwd_lt hf)

theorem range_check {t : List Dbl} {i1 i2 : ℕ} (hi : i1 ≤ t.length ∧ i2 ≤ t.length)
    (h : (((i2 : Int) - i1).tmod 3 != 0 || decide ((i2 : Int) - i1 ≤ 0)) = false) :
    checkThrottles ((t.drop i1).take (i2 - i1)) = .ok () := by
  simp only [Bool.or_eq_false_iff, bne_eq_false_iff_eq, decide_eq_false_iff_not, not_le] at h
  obtain ⟨c1, c2⟩ := h
  rw [Int.tmod_eq_emod_of_nonneg c2.le] at c1
  have hlen : ((t.drop i1).take (i2 - i1)).length = i2 - i1 := by
    rw [List.length_take, List.length_drop, Nat.min_eq_left (by omega)]
  unfold checkThrottles throwIf
  rw [if_neg, Res.ok_bind, if_neg]
  · rw [List.isEmpty_iff]; intro hh; rw [hh] at hlen; simp at hlen; omega
  · rw [hlen]; simp only [bne_iff_ne, ne_eq, not_not]; omega

theorem setTail_step {mu isp tol : Dbl} {l : Leg Dbl} (h1 : l.tas.Same (Integ.make E tol mu isp))
    (h2 : l.tasVar.Same (Integ.make E tol mu isp)) (h3 : l.mu = mu) (h4 : l.isp = isp) (h5 : l.tol = tol) :
    StepOk fl E mu isp tol true (setTail fl E l) := by
  unfold setTail updateSegs
  rw [Mut.bind_run]
  simp only [Mut.assign_bind_run, Mut.read_bind_run]
  cases hf : nsegFwdOf fl (nsegOf l.throttles.length) l.cut with
  | err e => exact absurd hf nsegFwd_ne_err
  | ub => trivial
  | ok f =>
    simp only [Mut.assign_run]
    cases hc : sanityChecks l.throttles l.tof l.maxThrust l.isp l.mu l.cut l.tol (nsegOf l.throttles.length) f
        (usub (nsegOf l.throttles.length) f) with
    | err e => exact Or.inl rfl
    | ub => trivial
    | ok u => exact ⟨hc, rfl, hf, rfl, rfl, h1, h2, h3, h4, h5⟩

theorem step_good {mu isp tol : Dbl} (op : Op) (hop : op.tame mu isp tol) {l : Leg Dbl}
    (h : Good fl E mu isp tol l) : StepOk fl E mu isp tol op.isSet (op.run fl E l) := by
  have hc := sanity_iff.1 h.checks
  obtain ⟨c1, c2, c3, c4, c5, c6, c7, c8⟩ := hc
  cases op with
  | tof x =>
    refine call_cases (P := StepOk fl E mu isp tol false) (fun _ => trivial) (fun e => Or.inr h) fun hx => ?_
    exact ⟨sanity_iff.2 ⟨c1, hx, c3, c4, c5, c6, c7, c8⟩, h.nseg, h.fwd, h.bck, h.thr, h.tas, h.tasVar, h.mu,
      h.isp, h.tol⟩
  | rvs x => exact ⟨h.checks, h.nseg, h.fwd, h.bck, h.thr, h.tas, h.tasVar, h.mu, h.isp, h.tol⟩
  | ms x => exact ⟨h.checks, h.nseg, h.fwd, h.bck, h.thr, h.tas, h.tasVar, h.mu, h.isp, h.tol⟩
  | rvf x => exact ⟨h.checks, h.nseg, h.fwd, h.bck, h.thr, h.tas, h.tasVar, h.mu, h.isp, h.tol⟩
  | mf x => exact ⟨h.checks, h.nseg, h.fwd, h.bck, h.thr, h.tas, h.tasVar, h.mu, h.isp, h.tol⟩
  | rvms x => exact ⟨h.checks, h.nseg, h.fwd, h.bck, h.thr, h.tas, h.tasVar, h.mu, h.isp, h.tol⟩
  | rvmf x => exact ⟨h.checks, h.nseg, h.fwd, h.bck, h.thr, h.tas, h.tasVar, h.mu, h.isp, h.tol⟩
  | throttles t =>
    refine call_cases (P := StepOk fl E mu isp tol false) (fun _ => trivial) (fun e => Or.inr h) fun hx => ?_
    exact throttles_step h hx _
  | range t i1 i2 =>
    show StepOk fl E mu isp tol false (setThrottlesRange fl E t i1 i2 l)
    unfold setThrottlesRange
    refine call_cases (P := StepOk fl E mu isp tol false) (fun _ => trivial) (fun e => Or.inr h) fun hx => ?_
    refine call_cases (P := StepOk fl E mu isp tol false) (fun _ => trivial) (fun e => Or.inr h) fun hy => ?_
    refine throttles_step h (range_check ?_ ?_) _
    · by_contra hh; rw [if_neg hh] at hx; cases hx
    · unfold throwIf at hy
      rw [← Bool.not_eq_true]; intro hh; rw [if_pos hh] at hy; cases hy
  | maxThrust x => exact hop.elim
  | isp x => exact hop.elim
  | mu x => exact hop.elim
  | tol x => exact hop.elim
  | cut x =>
    show StepOk fl E mu isp tol false (setCut fl x l)
    unfold setCut
    refine call_cases (P := StepOk fl E mu isp tol false) (fun _ => trivial) (fun e => Or.inr h) fun hx => ?_
    simp only [Mut.assign_bind_run, Mut.read_bind_run]
    cases hf : nsegFwdOf fl l.nseg x with
    | err e => exact absurd hf nsegFwd_ne_err
    | ub => trivial
    | ok f =>
      simp only [Mut.assign_run]
      refine ⟨sanity_iff.2 ⟨c1, c2, c3, c4, c5, hx, c7, ?_⟩, h.nseg, hf, rfl, h.thr, h.tas, h.tasVar, h.mu, h.isp,
        h.tol⟩
      exact checkNseg_usub (by rw [h.nseg]; exact nsegOf_lt _) (nsegFwd_lt hf)
  | setRv a b c d e f g i m j t =>
    obtain ⟨rfl, rfl, rfl⟩ := hop
    exact setTail_step h.tas h.tasVar rfl rfl rfl
  | set a b c d e i m j t =>
    obtain ⟨rfl, rfl, rfl⟩ := hop
    exact setTail_step h.tas h.tasVar rfl rfl rfl
  | set4 a b c d => exact setTail_step h.tas h.tasVar h.mu h.isp h.tol
  | mismatch =>
    have hg : Good fl E mu isp tol (computeMismatch E l).2 :=
      ⟨h.checks, h.nseg, h.fwd, h.bck, h.thr, (mismatchOn_same E l l.tas).trans h.tas, h.tasVar, h.mu, h.isp, h.tol⟩
    show StepOk fl E mu isp tol false ((computeMismatch E >>= fun _ => pure ()) l)
    rw [Mut.bind_run]
    revert hg
    generalize computeMismatch E l = x
    rcases x with ⟨x1, x2⟩
    intro hg
    cases x1 with
    | ok a => exact hg
    | err e => exact Or.inr hg
    | ub => trivial
  | gradients =>
    have hg : Good fl E mu isp tol (computeAllGradients E l).2 :=
      ⟨h.checks, h.nseg, h.fwd, h.bck, h.thr, h.tas, (allGradientsOn_same E l l.tasVar).trans h.tasVar, h.mu, h.isp,
        h.tol⟩
    show StepOk fl E mu isp tol false ((computeAllGradients E >>= fun _ => pure ()) l)
    rw [Mut.bind_run]
    revert hg
    generalize computeAllGradients E l = x
    rcases x with ⟨x1, x2⟩
    intro hg
    cases x1 with
    | ok a => exact hg
    | err e => exact Or.inr hg
    | ub => trivial

theorem ops_good {mu isp tol : Dbl} (ops : List Op) (hops : ∀ op ∈ ops, op.tame mu isp tol) {l l' : Leg Dbl}
    {oks : List Bool} (h : Good fl E mu isp tol l) (hr : runOps fl E ops l = some (l', oks))
    (hs : ∀ p ∈ ops.zip oks, p.1.isSet = true → p.2 = true) : Good fl E mu isp tol l' := by
  induction ops generalizing l oks with
  | nil => injection hr with hr; injection hr with h1 h2; subst h1; exact h
  | cons op ops ih =>
    have hstep := step_good (fl := fl) (E := E) op (hops op (by simp)) h
    unfold runOps at hr
    revert hr hstep
    generalize op.run fl E l = x
    rcases x with ⟨x1, x2⟩
    intro hstep hr
    cases x1 with
    | ub => cases hr
    | ok a =>
      simp only [Option.map_eq_some_iff] at hr
      obtain ⟨⟨y1, y2⟩, hy, he⟩ := hr
      injection he with h1 h2
      subst h1 h2
      exact ih (fun o ho => hops o (by simp [ho])) hstep hy
        (fun p hp => hs p (by rw [List.zip_cons_cons]; exact List.mem_cons_of_mem _ hp))
    | err e =>
      simp only [Option.map_eq_some_iff] at hr
      obtain ⟨⟨y1, y2⟩, hy, he⟩ := hr
      injection he with h1 h2
      subst h1 h2
      have hns : op.isSet ≠ true := by
        intro hset
        have := hs (op, false) (by simp [Res.isOk]) hset
        cases this
      exact ih (fun o ho => hops o (by simp [ho])) (hstep.resolve_left hns) hy
        (fun p hp => hs p (by rw [List.zip_cons_cons]; exact List.mem_cons_of_mem _ hp))

/-- **C48, partial.** Take a constructed leg and any sequence of member function calls, successful or
throwing, in which `mu`, `isp` and `tol` keep their construction values, the maximum thrust is changed
only through a `set` overload, and no `set` overload throws. If nothing undefined happened, the leg
computes the mismatch, the constraints and the per-segment gradients of a fresh leg constructed with
its current data. Missing for the full claim: `set_max_thrust`, `set_isp`, `set_mu`, `set_tol`, `set`
with other parameters, and a throwing `set`, for all of which it is false (below and
`C49_failed_set_then_ub`). -/
theorem C48_faithful_partial {rvms rvmf : St Dbl} {t : List Dbl} {tof mt isp mu cut tol : Dbl} {l l' : Leg Dbl}
    (hl : Leg.make fl E rvms t rvmf tof mt isp mu cut tol = .ok l) (ops : List Op)
    (hops : ∀ op ∈ ops, op.tame mu isp tol) {oks : List Bool} (hr : runOps fl E ops l = some (l', oks))
    (hs : ∀ p ∈ ops.zip oks, p.1.isSet = true → p.2 = true) : l'.Faithful fl E :=
  (ops_good ops hops (make_good fl E hl) hr hs).faithful

/-- What any call leaves alone: the parameters of the two integrators. -/
theorem step_params (op : Op) (l : Leg Dbl) :
    (op.run fl E l).2.tas.Same l.tas ∧ (op.run fl E l).2.tasVar.Same l.tasVar := by
  have keep : ∀ {f : Leg Dbl → Leg Dbl}, ((f l).tas = l.tas ∧ (f l).tasVar = l.tasVar) →
      (f l).tas.Same l.tas ∧ (f l).tasVar.Same l.tasVar := by
    intro f h; rw [h.1, h.2]; exact ⟨Integ.Same.refl _, Integ.Same.refl _⟩
  have segs : ∀ m : Leg Dbl, (updateSegs fl m).2.tas = m.tas ∧ (updateSegs fl m).2.tasVar = m.tasVar := by
    intro m
    unfold updateSegs
    simp only [Mut.assign_bind_run, Mut.read_bind_run]
    cases nsegFwdOf fl (nsegOf m.throttles.length) m.cut <;> exact ⟨rfl, rfl⟩
  let P : Leg Dbl → Prop := fun m => m.tas = l.tas ∧ m.tasVar = l.tasVar
  have fin : ∀ m : Leg Dbl, P m → m.tas.Same l.tas ∧ m.tasVar.Same l.tasVar := by
    intro m h; rw [h.1, h.2]; exact ⟨Integ.Same.refl _, Integ.Same.refl _⟩
  have tail : ∀ m : Leg Dbl, P m → P (setTail fl E m).2 := by
    intro m hm
    unfold setTail
    refine bind_keeps (P := P) ⟨(segs m).1.trans hm.1, (segs m).2.trans hm.2⟩ fun _ s hs => ?_
    exact bind_keeps (P := P) hs fun _ s hs => hs
  have chk : ∀ {r : Res Unit} {k : Unit → Mut (Leg Dbl) Unit}, P (k () l).2 →
      P ((Mut.call r >>= k) l).2 := by
    intro r k hk
    cases r with
    | ok u => exact hk
    | err e => exact ⟨rfl, rfl⟩
    | ub => exact ⟨rfl, rfl⟩
  have thr : ∀ t, P (((do Mut.assign fun l => { l with throttles := t }
                          updateSegs fl
                          updateThrusts E : Mut (Leg Dbl) Unit) l).2) := by
    intro t
    refine bind_keeps (P := P) ⟨rfl, rfl⟩ fun _ s hs => ?_
    exact bind_keeps (P := P) ⟨(segs s).1.trans hs.1, (segs s).2.trans hs.2⟩ fun _ s hs => hs
  cases op with
  | tof x => exact fin _ (chk ⟨rfl, rfl⟩)
  | maxThrust x => exact fin _ (chk ⟨rfl, rfl⟩)
  | isp x => exact fin _ (chk ⟨rfl, rfl⟩)
  | mu x => exact fin _ (chk ⟨rfl, rfl⟩)
  | tol x => exact fin _ (chk ⟨rfl, rfl⟩)
  | rvs x => exact fin _ ⟨rfl, rfl⟩
  | ms x => exact fin _ ⟨rfl, rfl⟩
  | rvf x => exact fin _ ⟨rfl, rfl⟩
  | mf x => exact fin _ ⟨rfl, rfl⟩
  | rvms x => exact fin _ ⟨rfl, rfl⟩
  | rvmf x => exact fin _ ⟨rfl, rfl⟩
  | throttles t => exact fin _ (chk (thr t))
  | range t i1 i2 => exact fin _ (chk (chk (thr _)))
  | cut x =>
    refine fin _ (chk ?_)
    simp only [Mut.assign_bind_run, Mut.read_bind_run]
    cases nsegFwdOf fl l.nseg x <;> exact ⟨rfl, rfl⟩
  | setRv a b c d e f g i m j t => exact fin _ (tail _ ⟨rfl, rfl⟩)
  | set a b c d e i m j t => exact fin _ (tail _ ⟨rfl, rfl⟩)
  | set4 a b c d => exact fin _ (tail _ ⟨rfl, rfl⟩)
  | mismatch =>
    exact bind_keeps (P := fun m : Leg Dbl => m.tas.Same l.tas ∧ m.tasVar.Same l.tasVar)
      ⟨mismatchOn_same E l l.tas, Integ.Same.refl _⟩ fun _ s hs => hs
  | gradients =>
    exact bind_keeps (P := fun m : Leg Dbl => m.tas.Same l.tas ∧ m.tasVar.Same l.tasVar)
      ⟨Integ.Same.refl _, allGradientsOn_same E l l.tasVar⟩ fun _ s hs => hs

/-- **C48, what really happens.** Whatever is called on a constructed leg, its integrators keep the
tolerance, `mu` and exhaust velocity of the construction: the mismatch and the gradients are computed
with those, not with the current members. -/
theorem C48_integrators_never_updated {rvms rvmf : St Dbl} {t : List Dbl} {tof mt isp mu cut tol : Dbl}
    {l l' : Leg Dbl} (hl : Leg.make fl E rvms t rvmf tof mt isp mu cut tol = .ok l) (ops : List Op)
    {oks : List Bool} (hr : runOps fl E ops l = some (l', oks)) :
    (computeMismatch E l').1 = (computeMismatch E { l' with tas := Integ.make E tol mu isp }).1 ∧
    (computeAllGradients E l').1 = (computeAllGradients E { l' with tasVar := Integ.make E tol mu isp }).1 ∧
    l'.tas.mu = mu ∧ l'.tas.veff = E.mul isp E.g0 ∧ l'.tas.tol = tol := by
  have key : l'.tas.Same (Integ.make E tol mu isp) ∧ l'.tasVar.Same (Integ.make E tol mu isp) := by
    have h0 : l.tas.Same (Integ.make E tol mu isp) ∧ l.tasVar.Same (Integ.make E tol mu isp) :=
      ⟨(make_good fl E hl).tas, (make_good fl E hl).tasVar⟩
    clear hl
    induction ops generalizing l oks with
    | nil => injection hr with hr; injection hr with h1 h2; subst h1; exact h0
    | cons op ops ih =>
      have hstep := step_params (fl := fl) (E := E) op l
      unfold runOps at hr
      revert hr hstep
      generalize op.run fl E l = x
      rcases x with ⟨x1, x2⟩
      intro hstep hr
      cases x1 with
      | ub => cases hr
      | ok a =>
        simp only [Option.map_eq_some_iff] at hr
        obtain ⟨⟨y1, y2⟩, hy, he⟩ := hr
        injection he with h1 h2
        subst h1
        exact ih hy ⟨hstep.1.trans h0.1, hstep.2.trans h0.2⟩
      | err e =>
        simp only [Option.map_eq_some_iff] at hr
        obtain ⟨⟨y1, y2⟩, hy, he⟩ := hr
        injection he with h1 h2
        subst h1
        exact ih hy ⟨hstep.1.trans h0.1, hstep.2.trans h0.2⟩
  exact ⟨mismatchOn_rel E l' key.1, allGradientsOn_rel E l' key.2, key.1.2.1, key.1.2.2, key.1.1⟩

/-- **C48 fails for `set_mu`.** The mismatch after a successful `set_mu(mu')` is the one with the old
value; so whenever the value matters, the leg is not faithful. -/
theorem C48_set_mu_stale {rvms rvmf : St Dbl} {t : List Dbl} {tof mt isp mu mu' cut tol : Dbl} {l l' : Leg Dbl}
    (hl : Leg.make fl E rvms t rvmf tof mt isp mu cut tol = .ok l)
    (hl' : Leg.make fl E rvms t rvmf tof mt isp mu' cut tol = .ok l')
    (hd : (computeMismatch E l).1 ≠ (computeMismatch E l').1) :
    (setMu mu' l).1 = .ok () ∧ ¬ (setMu mu' l).2.Faithful fl E := by
  obtain ⟨f, hf, hc, rfl⟩ := make_eq fl E hl
  obtain ⟨f', hf', hc', rfl⟩ := make_eq fl E hl'
  have hm := (sanity_iff.1 hc').2.2.2.2.1
  unfold setMu
  rw [hm, Mut.call_ok_bind]
  refine ⟨rfl, ?_⟩
  rintro ⟨fresh, h1, h2, -⟩
  have h1 : Leg.make fl E rvms t rvmf tof mt isp mu' cut tol = .ok fresh := h1
  rw [hl'] at h1
  injection h1 with h1
  subst h1
  exact hd h2

/-- **C48 fails for `set_isp`.** -/
theorem C48_set_isp_stale {rvms rvmf : St Dbl} {t : List Dbl} {tof mt isp isp' mu cut tol : Dbl} {l l' : Leg Dbl}
    (hl : Leg.make fl E rvms t rvmf tof mt isp mu cut tol = .ok l)
    (hl' : Leg.make fl E rvms t rvmf tof mt isp' mu cut tol = .ok l')
    (hd : (computeMismatch E l).1 ≠ (computeMismatch E l').1) :
    (setIsp isp' l).1 = .ok () ∧ ¬ (setIsp isp' l).2.Faithful fl E := by
  obtain ⟨f, hf, hc, rfl⟩ := make_eq fl E hl
  obtain ⟨f', hf', hc', rfl⟩ := make_eq fl E hl'
  have hm := (sanity_iff.1 hc').2.2.2.1
  unfold setIsp
  rw [hm, Mut.call_ok_bind]
  refine ⟨rfl, ?_⟩
  rintro ⟨fresh, h1, h2, -⟩
  have h1 : Leg.make fl E rvms t rvmf tof mt isp' mu cut tol = .ok fresh := h1
  rw [hl'] at h1
  injection h1 with h1
  subst h1
  exact hd h2

/-- **C48 fails for `set_tol`.** -/
theorem C48_set_tol_stale {rvms rvmf : St Dbl} {t : List Dbl} {tof mt isp mu cut tol tol' : Dbl} {l l' : Leg Dbl}
    (hl : Leg.make fl E rvms t rvmf tof mt isp mu cut tol = .ok l)
    (hl' : Leg.make fl E rvms t rvmf tof mt isp mu cut tol' = .ok l')
    (hd : (computeMismatch E l).1 ≠ (computeMismatch E l').1) :
    (setTol tol' l).1 = .ok () ∧ ¬ (setTol tol' l).2.Faithful fl E := by
  obtain ⟨f, hf, hc, rfl⟩ := make_eq fl E hl
  obtain ⟨f', hf', hc', rfl⟩ := make_eq fl E hl'
  have hm := (sanity_iff.1 hc').2.2.2.2.2.2.1
  unfold setTol
  rw [hm, Mut.call_ok_bind]
  refine ⟨rfl, ?_⟩
  rintro ⟨fresh, h1, h2, -⟩
  have h1 : Leg.make fl E rvms t rvmf tof mt isp mu cut tol' = .ok fresh := h1
  rw [hl'] at h1
  injection h1 with h1
  subst h1
  exact hd h2

/-- **C48 fails for `set_max_thrust`**: the stored thrusts keep the old value. -/
theorem C48_set_max_thrust_stale {rvms rvmf : St Dbl} {t : List Dbl} {tof mt mt' isp mu cut tol : Dbl}
    {l l' : Leg Dbl}
    (hl : Leg.make fl E rvms t rvmf tof mt isp mu cut tol = .ok l)
    (hl' : Leg.make fl E rvms t rvmf tof mt' isp mu cut tol = .ok l')
    (hd : (computeMismatch E l).1 ≠ (computeMismatch E l').1) :
    (setMaxThrust mt' l).1 = .ok () ∧ ¬ (setMaxThrust mt' l).2.Faithful fl E := by
  obtain ⟨f, hf, hc, rfl⟩ := make_eq fl E hl
  obtain ⟨f', hf', hc', rfl⟩ := make_eq fl E hl'
  have hm := (sanity_iff.1 hc').2.2.1
  unfold setMaxThrust
  rw [hm, Mut.call_ok_bind]
  refine ⟨rfl, ?_⟩
  rintro ⟨fresh, h1, h2, -⟩
  have h1 : Leg.make fl E rvms t rvmf tof mt' isp mu cut tol = .ok fresh := h1
  rw [hl'] at h1
  injection h1 with h1
  subst h1
  exact hd h2

/-- A computable stand-in for the outside world, to exhibit cases: exact rational arithmetic, and an
"integrator" that writes its parameters into the state. -/
def toyEnv : Env Dbl where
  add a b := match a, b with | .fin x, .fin y => .fin (x + y) | _, _ => .nan
  sub a b := match a, b with | .fin x, .fin y => .fin (x - y) | _, _ => .nan
  mul a b := match a, b with | .fin x, .fin y => .fin (x * y) | _, _ => .nan
  div a b := match a, b with | .fin x, .fin y => .fin (x / y) | _, _ => .nan
  ofNat n := .fin n
  g0 := .fin (980665 / 100000)
  prop tol mu veff u _ x _ := some ⟨⟨⟨tol, mu, veff⟩, u⟩, x.m⟩
  vprop tol mu veff u _ x _ := some (⟨⟨⟨tol, mu, veff⟩, u⟩, x.m⟩, ⟨fun _ _ => mu, fun _ _ => veff⟩)
  grid _ _ _ _ _ x ts := some (ts.map fun _ => x)
  rhs _ _ _ x := x
  con u := u.x

/-- The state used in the examples. -/
def exSt : St Dbl := ⟨⟨⟨1, 0, 0⟩, ⟨0, 1, 0⟩⟩, 1⟩

/-- A leg with one forward segment. -/
def exLeg (mt isp mu tol : Dbl) : Res (Leg Dbl) :=
  Leg.make id toyEnv exSt [1, 0, 0] exSt 1 mt isp mu 1 tol

/-- Mismatch of the leg with one forward segment. -/
def exMismatch (mt isp mu tol : Dbl) : Res (St Dbl) := do
  let l ← exLeg mt isp mu tol
  (computeMismatch toyEnv l).1

/-- The hypotheses of `C48_set_mu_stale` and its companions are met: the legs can be built and their
mismatches differ when one of the four parameters does. -/
example : (exMismatch 1 1 1 1).isOk ∧ (exMismatch 1 1 2 1).isOk ∧ (exMismatch 1 2 1 1).isOk ∧
    (exMismatch 1 1 1 (.fin (1 / 2))).isOk ∧ (exMismatch 2 1 1 1).isOk ∧
    exMismatch 1 1 1 1 ≠ exMismatch 1 1 2 1 ∧ exMismatch 1 1 1 1 ≠ exMismatch 1 2 1 1 ∧
    exMismatch 1 1 1 1 ≠ exMismatch 1 1 1 (.fin (1 / 2)) ∧ exMismatch 1 1 1 1 ≠ exMismatch 2 1 1 1 := by
  decide +kernel

/-- The hypotheses of `C48_faithful_partial` are met by a history that changes throttles, time of flight
and cut, has a rejected call, and a `set` with another maximum thrust. -/
example : (match exLeg 1 1 1 1 with
    | .ok l => (runOps id toyEnv [.throttles [1, 0, 0, 0, 1, 0], .tof (.fin (-1)), .tof 3, .mismatch,
        .cut (.fin (1 / 2)), .set exSt [0, 0, 1, 0, 1, 0] exSt 2 5 1 1 (.fin (1 / 2)) 1, .gradients] l).map
        fun p => (p.2, p.1.nsegFwd, p.1.nsegBck, p.1.maxThrust)
    | _ => none) = some ([true, false, true, true, true, true, true], 1, 1, 5) := by
  decide +kernel

end
end Kep3.HF
