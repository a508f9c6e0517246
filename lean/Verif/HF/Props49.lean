import Verif.HF.Props48

/-!
# C49: failing setters; C59: serialization; C60: the chromosome of the leg
-/

namespace Kep3.HF

open Kep3
open Kep3.SF (throwIf checkTof checkThrottles checkMaxThrust checkIsp checkMu checkCut checkTol checkNseg
  nsegOf nsegFwdOf usub triple)

variable {fl : ℚ → ℚ} {E : Env Dbl}

/-- A setter other than the three `set` overloads. -/
def Op.isSingleSetter : Op → Bool
  | .setRv .. | .set .. | .set4 .. | .mismatch | .gradients => false
  | _ => true

/-- **C49, partial.** A setter other than the `set` overloads that throws leaves the leg exactly as it
was. Missing for the full claim: the `set` overloads, for which it is false
(`C49_set4_failed_keeps_arguments` and companions). -/
theorem C49_setters_partial (op : Op) (hop : op.isSingleSetter) (l l' : Leg Dbl) (e : Exc)
    (h : op.run fl E l = (.err e, l')) : l' = l := by
  have chk : ∀ {r : Res Unit} {k : Unit → Mut (Leg Dbl) Unit}, (∀ e l', k () l ≠ (.err e, l')) →
      (Mut.call r >>= k) l = (.err e, l') → l' = l := by
    intro r k hk h
    cases r with
    | ok u => exact absurd h (hk e l')
    | err e' => injection h with _ h; exact h.symm
    | ub => injection h with h1 _; cases h1
  have thr : ∀ t e l', ((do Mut.assign fun l => { l with throttles := t }
                            updateSegs fl
                            updateThrusts E : Mut (Leg Dbl) Unit) l) ≠ (.err e, l') := by
    intro t e l' h
    unfold updateSegs at h
    simp only [Mut.assign_bind_run] at h
    rw [Mut.bind_run] at h
    simp only [Mut.assign_bind_run, Mut.read_bind_run] at h
    cases hf : nsegFwdOf fl (nsegOf t.length) l.cut with
    | err e => exact nsegFwd_ne_err hf
    | ub => rw [hf] at h; injection h with h1 _; cases h1
    | ok f => rw [hf] at h; injection h with h1 _; cases h1
  cases op with
  | tof x => exact chk (fun e l' h => by injection h with h1; cases h1) h
  | maxThrust x => exact chk (fun e l' h => by injection h with h1; cases h1) h
  | isp x => exact chk (fun e l' h => by injection h with h1; cases h1) h
  | mu x => exact chk (fun e l' h => by injection h with h1; cases h1) h
  | tol x => exact chk (fun e l' h => by injection h with h1; cases h1) h
  | rvs x => injection h with h1; cases h1
  | ms x => injection h with h1; cases h1
  | rvf x => injection h with h1; cases h1
  | mf x => injection h with h1; cases h1
  | rvms x => injection h with h1; cases h1
  | rvmf x => injection h with h1; cases h1
  | throttles t => exact chk (thr t) h
  | range t i1 i2 =>
    have h : (Mut.call (if i1 ≤ t.length ∧ i2 ≤ t.length then Res.ok () else .ub) >>= fun _ =>
      Mut.call (throwIf (((i2 : Int) - i1).tmod 3 != 0 || decide ((i2 : Int) - i1 ≤ 0)) .logicError) >>= fun _ =>
        (do Mut.assign fun l => { l with throttles := (t.drop i1).take (i2 - i1) }
            updateSegs fl
            updateThrusts E : Mut (Leg Dbl) Unit)) l = (.err e, l') := h
    cases hc : (if i1 ≤ t.length ∧ i2 ≤ t.length then Res.ok () else (.ub : Res Unit)) with
    | ok u => rw [hc, Mut.call_ok_bind] at h; exact chk (thr ((t.drop i1).take (i2 - i1))) h
    | err e' => rw [hc] at h; injection h with _ h; exact h.symm
    | ub => rw [hc] at h; injection h with h1 _; cases h1
  | cut x =>
    refine chk (fun e l' h => ?_) h
    simp only [Mut.assign_bind_run, Mut.read_bind_run] at h
    cases hf : nsegFwdOf fl l.nseg x with
    | err e => exact nsegFwd_ne_err hf
    | ub => rw [hf] at h; injection h with h1 _; cases h1
    | ok f => rw [hf] at h; injection h with h1 _; cases h1
  | setRv => cases hop
  | set => cases hop
  | set4 => cases hop
  | mismatch => cases hop
  | gradients => cases hop

/-- The hypotheses are met: a rejected time of flight. -/
example : Op.run id toyEnv (.tof (.fin (-1))) (Leg.default toyEnv 1) =
    (.err .domainError, Leg.default toyEnv 1) := by decide +kernel

theorem setTail_err {l l' : Leg Dbl} {e : Exc} (h : setTail fl E l = (.err e, l')) :
    ∃ n f b, l' = { l with nseg := n, nsegFwd := f, nsegBck := b } := by
  unfold setTail updateSegs at h
  rw [Mut.bind_run] at h
  simp only [Mut.assign_bind_run, Mut.read_bind_run] at h
  cases hf : nsegFwdOf fl (nsegOf l.throttles.length) l.cut with
  | err e => exact absurd hf nsegFwd_ne_err
  | ub => rw [hf] at h; injection h with h1 _; cases h1
  | ok f =>
    rw [hf] at h
    simp only [Mut.assign_run] at h
    cases hc : sanityChecks l.throttles l.tof l.maxThrust l.isp l.mu l.cut l.tol (nsegOf l.throttles.length) f
        (usub (nsegOf l.throttles.length) f) with
    | err e => rw [hc] at h; injection h with _ h; exact ⟨_, _, _, h.symm⟩
    | ub => rw [hc] at h; injection h with h1 _; cases h1
    | ok u => rw [hc] at h; injection h with h1 _; cases h1

/-- **C49 fails for `set(rvms, throttles, rvmf, tof)`.** When it throws, the rejected values have replaced
the data of the leg, while the thrusts used in the propagation are still the old ones. -/
theorem C49_set4_failed_keeps_arguments {rvms rvmf : St Dbl} {t : List Dbl} {tof : Dbl} {l l' : Leg Dbl} {e : Exc}
    (h : set4 fl E rvms t rvmf tof l = (.err e, l')) :
    l'.rvms = rvms ∧ l'.throttles = t ∧ l'.rvmf = rvmf ∧ l'.tof = tof ∧ l'.thrusts = l.thrusts := by
  obtain ⟨n, f, b, rfl⟩ := setTail_err (fl := fl) (E := E)
    (l := { l with rvms := rvms, throttles := t, rvmf := rvmf, tof := tof }) h
  exact ⟨rfl, rfl, rfl, rfl, rfl⟩

/-- **C49 fails for the nine argument `set`.** -/
theorem C49_set_failed_keeps_arguments {rvms rvmf : St Dbl} {t : List Dbl} {tof mt isp mu cut tol : Dbl}
    {l l' : Leg Dbl} {e : Exc} (h : setAll fl E rvms t rvmf tof mt isp mu cut tol l = (.err e, l')) :
    l'.rvms = rvms ∧ l'.throttles = t ∧ l'.rvmf = rvmf ∧ l'.tof = tof ∧ l'.maxThrust = mt ∧ l'.isp = isp ∧
      l'.mu = mu ∧ l'.cut = cut ∧ l'.tol = tol ∧ l'.thrusts = l.thrusts := by
  obtain ⟨n, f, b, rfl⟩ := setTail_err (fl := fl) (E := E)
    (l := { l with rvms := rvms, throttles := t, rvmf := rvmf, tof := tof, maxThrust := mt, isp := isp, mu := mu,
                   cut := cut, tol := tol }) h
  exact ⟨rfl, rfl, rfl, rfl, rfl, rfl, rfl, rfl, rfl, rfl⟩

/-- **C49 fails for the eleven argument `set`.** -/
theorem C49_setRv_failed_keeps_arguments {rvs rvf : RV Dbl} {t : List Dbl} {ms mf tof mt isp mu cut tol : Dbl}
    {l l' : Leg Dbl} {e : Exc} (h : setAllRv fl E rvs ms t rvf mf tof mt isp mu cut tol l = (.err e, l')) :
    l'.rvms = ⟨rvs, ms⟩ ∧ l'.throttles = t ∧ l'.rvmf = ⟨rvf, mf⟩ ∧ l'.tof = tof ∧ l'.maxThrust = mt ∧
      l'.isp = isp ∧ l'.mu = mu ∧ l'.cut = cut ∧ l'.tol = tol ∧ l'.thrusts = l.thrusts := by
  obtain ⟨n, f, b, rfl⟩ := setTail_err (fl := fl) (E := E)
    (l := { l with rvms := ⟨rvs, ms⟩, throttles := t, rvmf := ⟨rvf, mf⟩, tof := tof, maxThrust := mt, isp := isp,
                   mu := mu, cut := cut, tol := tol }) h
  exact ⟨rfl, rfl, rfl, rfl, rfl, rfl, rfl, rfl, rfl, rfl⟩

/-- The hypothesis is met: a negative time of flight is rejected and then found in the leg. -/
example : (match set4 id toyEnv exSt [1, 0, 0] exSt (.fin (-1)) (Leg.default toyEnv 1) with
    | (.err e, l) => some (e, l.tof, l.throttles.length, l.thrusts.length)
    | _ => none) = some (.domainError, .fin (-1), 3, 6) := by decide +kernel

theorem forLoop_ub_first {σ : Type} {body : ℕ → Mut σ Unit} {n : ℕ} {s s' : σ} (hn : 0 < n)
    (h : body 0 s = (.ub, s')) : forLoop n body s = (.ub, s') := by
  induction n with
  | zero => omega
  | succ n ih =>
    rw [forLoop_succ, Mut.bind_run]
    rcases Nat.eq_zero_or_pos n with rfl | hp
    · exact h
    · rw [ih hp]

theorem computeMismatch_fst (l : Leg Dbl) : (computeMismatch E l).1 = (mismatchOn E l l.tas).1 := rfl

/-- **C49 fails, consequence.** A leg whose cut is zero, with consistent data, is asked to take longer
throttles together with a negative time of flight. The call throws; a caller who catches the exception
and asks for the mismatch gets undefined behaviour (the thrusts are read past their end). For every
integrator. -/
theorem C49_failed_set_then_ub (hfl : Dbl.Rounding fl) {mu isp tol q : Dbl} {l : Leg Dbl}
    (hl : Good fl E mu isp tol l) (hcut : l.cut = .fin 0) (rvms rvmf : St Dbl) {t : List Dbl} {m : ℕ}
    (ht : t.length = 3 * m) (htl : 3 * m < 2 ^ 32) (hm : l.throttles.length < t.length)
    (hq : q.lt 0 = true) :
    ∃ e l', set4 fl E rvms t rvmf q l = (.err e, l') ∧ (computeMismatch E l').1 = .ub := by
  have hm0 : 0 < m := by omega
  have hn : nsegOf t.length = m := SF.nsegOf_eq ht (by omega)
  have hf : nsegFwdOf fl m (.fin 0) = .ok 0 := by
    unfold nsegFwdOf Dbl.natMul Dbl.castUnsigned
    simp only [mul_zero]
    rw [show fl 0 = 0 by simpa using hfl.fix 0 (by norm_num)]
    simp
  obtain ⟨c1, c2, c3, c4, c5, c6, c7, c8⟩ := sanity_iff.1 hl.checks
  have hth : checkThrottles t = .ok () := by
    unfold checkThrottles throwIf
    rw [if_neg, Res.ok_bind, if_neg]
    · rw [List.isEmpty_iff]; intro hh; rw [hh] at ht; simp at ht; omega
    · rw [ht]; simp
  have husub : usub m 0 = m := SF.usub_le (by omega) (by omega)
  have hu1 : usub m 1 = m - 1 := SF.usub_le (by omega) (by omega)
  have hthr : l.thrusts.length = l.throttles.length := by rw [hl.thr]; simp [thrustsOf]
  refine ⟨.domainError, { l with rvms := rvms, throttles := t, rvmf := rvmf, tof := q, nseg := m, nsegFwd := 0,
                                 nsegBck := usub m 0 }, ?_, ?_⟩
  · show setTail fl E { l with rvms := rvms, throttles := t, rvmf := rvmf, tof := q } = _
    unfold setTail updateSegs
    rw [Mut.bind_run]
    simp only [Mut.assign_bind_run, Mut.read_bind_run, hn, hcut, hf, Mut.assign_run]
    unfold sanityChecks checkTof throwIf
    rw [hth]
    simp only [Res.ok_bind, hq, if_true, Res.err_bind]
  · rw [computeMismatch_fst]
    unfold mismatchOn
    simp only [husub, Mut.assign_bind_run]
    rw [Mut.bind_run, forLoop_zero]
    simp only [Mut.assign_bind_run, Mut.read_bind_run]
    rw [Mut.bind_run, forLoop_ub_first hm0]
    obtain ⟨n, hn3, -⟩ := (SF.three_iff _).1 c1
    have hidx : (m - 1) * 3 % 2 ^ 32 = (m - 1) * 3 := Nat.mod_eq_of_lt (by omega)
    have hget : l.thrusts[(m - 1) * 3]? = none := List.getElem?_eq_none (by omega)
    unfold bckSeg thrustAt triple
    simp only [zero_add, hu1, hidx, hget]
    rfl

/-- The hypotheses are met: a one segment leg with cut zero, and two segments offered. -/
example : ∃ l, Leg.make id toyEnv exSt [1, 0, 0] exSt 1 1 1 1 (.fin 0) 1 = .ok l ∧ Good id toyEnv 1 1 1 l ∧
    l.cut = .fin 0 ∧ l.throttles.length < ([1, 0, 0, 1, 0, 0] : List Dbl).length := by
  cases h : Leg.make id toyEnv exSt [1, 0, 0] exSt 1 1 1 1 (.fin 0) 1 with
  | ok l =>
    obtain ⟨f, -, -, rfl⟩ := make_eq _ _ h
    exact ⟨_, rfl, make_good _ _ h, rfl, by simp⟩
  | err e =>
    have : (Leg.make id toyEnv exSt [1, 0, 0] exSt 1 1 1 1 (.fin 0) 1).isOk = true := by decide +kernel
    rw [h] at this; cases this
  | ub =>
    have : (Leg.make id toyEnv exSt [1, 0, 0] exSt 1 1 1 1 (.fin 0) 1).isOk = true := by decide +kernel
    rw [h] at this; cases this

/-! ## Serialization -/

/-- **C59, partial.** Reading back an archive restores every data member except the variational
integrator, so the mismatch and the constraints are those of the saved leg. Missing: the gradients. -/
theorem C59_mismatch_partial (old l : Leg Dbl) :
    { old.load l.save with tasVar := l.tasVar } = l ∧
    (computeMismatch E (old.load l.save)).1 = (computeMismatch E l).1 ∧
    (computeConstraints E (old.load l.save)).1 = (computeConstraints E l).1 :=
  ⟨rfl, rfl, constraints_congr rfl (Integ.Same.refl _)⟩

/-- **C59, partial.** The gradients are right when the saved leg's variational integrator happens to
have the parameters of a default constructed leg (`mu = 1`, `isp = 1`, `tol = 1e-16`). -/
theorem C59_gradients_partial (tof0 : Dbl) (l : Leg Dbl)
    (h : l.tasVar.Same (Integ.make E (.fin (1 / 10 ^ 16)) 1 1)) :
    (computeAllGradients E ((Leg.default E tof0).load l.save)).1 = (computeAllGradients E l).1 :=
  gradients_congr rfl h.symm

/-- **C59 fails.** After a round trip through an archive (as in pickling: into a default constructed
leg) the gradients are computed with `mu = 1`, `isp = 1` and `tol = 1e-16`, whatever the leg had. -/
theorem C59_gradients_use_defaults (tof0 : Dbl) (l : Leg Dbl) :
    (computeAllGradients E ((Leg.default E tof0).load l.save)).1 =
      (computeAllGradients E { l with tasVar := Integ.make E (.fin (1 / 10 ^ 16)) 1 1 }).1 :=
  rfl

/-- The sensitivities computed for the first segment, before and after the round trip. -/
def exSens (l : Leg Dbl) : Option (Dbl × Dbl) :=
  match (computeAllGradients toyEnv l).1 with
  | .ok (s :: _, _) => some (s.dxdx 0 0, s.dxdu 0 0)
  | _ => none

/-- **C59 fails, witness**: a leg with `mu = 2` (`toyEnv` reports the parameter it integrates with). -/
theorem C59_roundtrip_changes_gradients :
    ∃ (E : Env Dbl) (l : Leg Dbl), (∃ mu isp tol, Good id E mu isp tol l) ∧
      (computeAllGradients E ((Leg.default E 1).load l.save)).1 ≠ (computeAllGradients E l).1 := by
  cases h : exLeg 1 1 2 1 with
  | ok l =>
    refine ⟨toyEnv, l, ⟨2, 1, 1, make_good _ _ h⟩, fun hh => ?_⟩
    have h1 : exSens ((Leg.default toyEnv 1).load l.save) = exSens l := by
      unfold exSens; rw [hh]
    have h2 : (match exLeg 1 1 2 1 with
      | .ok l => (exSens ((Leg.default toyEnv 1).load l.save), exSens l)
      | _ => (none, none)) ≠ ((match exLeg 1 1 2 1 with
      | .ok l => (exSens l, exSens l)
      | _ => (none, none)) : Option (Dbl × Dbl) × Option (Dbl × Dbl)) := by decide +kernel
    rw [h] at h2
    exact h2 (by simp only [h1])
  | err e =>
    have : (exLeg 1 1 2 1).isOk = true := by decide +kernel
    rw [h] at this; cases this
  | ub =>
    have : (exLeg 1 1 2 1).isOk = true := by decide +kernel
    rw [h] at this; cases this

/-! ## The chromosome -/

theorem sevenAt_append (s : St Dbl) (pre post : List Dbl) (k : ℕ) (h : pre.length = k) :
    sevenAt (pre ++ s.toList ++ post) k = .ok s := by
  subst h
  unfold sevenAt triple St.toList
  simp

/-- **C60.** `set_and_compute_constraints` on a vector `rvms, throttles, rvmf, tof` (with as many
throttles as the leg has segments; anything after the time of flight is ignored) does exactly what
`set(rvms, throttles, rvmf, tof)` followed by `compute_constraints()` does. -/
theorem C60_chromosome (rvms rvmf : St Dbl) (t extra : List Dbl) (tof : Dbl) (l : Leg Dbl)
    (ht : t.length = 3 * l.nseg) :
    setAndComputeConstraints fl E (rvms.toList ++ t ++ rvmf.toList ++ tof :: extra) l =
      (do HF.set4 fl E rvms t rvmf tof
          computeConstraints E : Mut (Leg Dbl) (List Dbl)) l := by
  unfold setAndComputeConstraints
  have e1 : sevenAt (rvms.toList ++ t ++ rvmf.toList ++ tof :: extra) 0 = .ok rvms := by
    have := sevenAt_append rvms [] (t ++ rvmf.toList ++ tof :: extra) 0 rfl
    simpa [List.append_assoc] using this
  have l1 : rvms.toList.length = 7 := rfl
  have l2 : rvmf.toList.length = 7 := rfl
  have e2 : sevenAt (rvms.toList ++ t ++ rvmf.toList ++ tof :: extra) (7 + l.nseg * 3) = .ok rvmf := by
    have := sevenAt_append rvmf (rvms.toList ++ t) (tof :: extra) (7 + l.nseg * 3)
      (by rw [List.length_append, l1, ht]; omega)
    simpa [List.append_assoc] using this
  have e3 : (rvms.toList ++ t ++ rvmf.toList ++ tof :: extra)[7 + l.nseg * 3 + 7]? = some tof := by
    rw [List.getElem?_append_right (by simp only [List.length_append, l1, l2, ht]; omega)]
    simp only [List.length_append, l1, l2, ht]
    rw [show 7 + l.nseg * 3 + 7 - (7 + 3 * l.nseg + 7) = 0 by omega]
    rfl
  have e4 : ((rvms.toList ++ t ++ rvmf.toList ++ tof :: extra).drop 7).take (l.nseg * 3) = t := by
    rw [List.append_assoc, List.append_assoc, List.drop_left' l1, List.take_left' (by omega)]
  have e5 : 7 + l.nseg * 3 ≤ (rvms.toList ++ t ++ rvmf.toList ++ tof :: extra).length := by
    simp only [List.length_append, l1, l2, ht]; omega
  simp only [Mut.read_bind_run, e1, e2, e3, Mut.call_ok_bind, if_pos e5, e4]

/-- **C60.** A shorter vector is read past its end: undefined behaviour, before anything is changed. -/
theorem C60_short_chromosome (c : List Dbl) (l : Leg Dbl) (h : c.length < 15 + 3 * l.nseg) :
    setAndComputeConstraints fl E c l = (.ub, l) := by
  unfold setAndComputeConstraints
  simp only [Mut.read_bind_run]
  have tri : ∀ k, c.length ≤ k + 6 → (∃ s, sevenAt c k = .ok s) → False := by
    rintro k hk ⟨s, hs⟩
    unfold sevenAt at hs
    rw [List.getElem?_eq_none (i := k + 6) hk] at hs
    revert hs
    cases triple c k (k + 1) (k + 2) with
    | ok a => cases triple c (k + 3) (k + 4) (k + 5) <;> (intro hs; cases hs)
    | err e => intro hs; cases hs
    | ub => intro hs; cases hs
  have noerr : ∀ k e, sevenAt c k ≠ .err e := by
    intro k e hs
    unfold sevenAt triple at hs
    revert hs
    cases c[k]? <;> cases c[k + 1]? <;> cases c[k + 2]? <;> cases c[k + 3]? <;> cases c[k + 3 + 1]? <;>
      cases c[k + 4]? <;> cases c[k + 5]? <;> cases c[k + 6]? <;> (intro hs; cases hs)
  cases h0 : sevenAt c 0 with
  | err e => exact absurd h0 (noerr 0 e)
  | ub => rfl
  | ok s0 =>
    rw [Mut.call_ok_bind]
    by_cases h1 : 7 + l.nseg * 3 ≤ c.length
    · rw [if_pos h1, Mut.call_ok_bind]
      cases h2 : sevenAt c (7 + l.nseg * 3) with
      | err e => exact absurd h2 (noerr _ e)
      | ub => rfl
      | ok s1 =>
        rw [Mut.call_ok_bind]
        rw [List.getElem?_eq_none (by omega)]
        rfl
    · rw [if_neg h1]; rfl

theorem mapM_length {α β : Type} (f : α → Res β) (xs : List α) {ys : List β} (h : xs.mapM f = .ok ys) :
    ys.length = xs.length := by
  induction xs generalizing ys with
  | nil => rw [List.mapM_nil] at h; injection h with h; subst h; rfl
  | cons x xs ih =>
    rw [List.mapM_cons] at h
    cases hx : f x with
    | ok y =>
      rw [hx, Res.ok_bind] at h
      cases hxs : xs.mapM f with
      | ok zs => rw [hxs, Res.ok_bind] at h; injection h with h; subst h; simp [ih hxs]
      | err e => rw [hxs] at h; cases h
      | ub => rw [hxs] at h; cases h
    | err e => rw [hx] at h; cases h
    | ub => rw [hx] at h; cases h

theorem mapM_getElem {α β : Type} (f : α → Res β) (xs : List α) {ys : List β} (h : xs.mapM f = .ok ys) {i : ℕ} {x : α}
    (hx : xs[i]? = some x) : ∃ y, f x = .ok y ∧ ys[i]? = some y := by
  induction xs generalizing ys i with
  | nil => simp at hx
  | cons z xs ih =>
    rw [List.mapM_cons] at h
    cases hz : f z with
    | ok y =>
      rw [hz, Res.ok_bind] at h
      cases hxs : xs.mapM f with
      | ok zs =>
        rw [hxs, Res.ok_bind] at h
        injection h with h
        subst h
        cases i with
        | zero => simp only [List.getElem?_cons_zero, Option.some.injEq] at hx; subst hx; exact ⟨y, hz, rfl⟩
        | succ i => exact ih hxs (by simpa using hx)
      | err e => rw [hxs] at h; cases h
      | ub => rw [hxs] at h; cases h
    | err e => rw [hz] at h; cases h
    | ub => rw [hz] at h; cases h

/-- **C60.** The constraints are the seven mismatches followed by one entry per segment, the throttle constraint of the
three throttle components of that segment. -/
theorem C60_constraints_shape (l l' : Leg Dbl) (c : List Dbl) (h : computeConstraints E l = (.ok c, l')) :
    ∃ s, (computeMismatch E l).1 = .ok s ∧ c.take 7 = s.toList ∧ c.length = 7 + l.nseg ∧
      ∀ i < l.nseg, ∃ u, triple l.throttles (3 * i) (3 * i + 1) (3 * i + 2) = .ok u ∧ c[7 + i]? = some (E.con u) := by
  unfold computeConstraints at h
  rw [Mut.bind_run] at h
  have hn : (computeMismatch E l).2.nseg = l.nseg := rfl
  have htr : (computeMismatch E l).2.throttles = l.throttles := rfl
  revert h hn htr
  generalize computeMismatch E l = x
  rcases x with ⟨x1, x2⟩
  intro h hn htr
  cases x1 with
  | err e => injection h with h1; cases h1
  | ub => injection h with h1; cases h1
  | ok s =>
    simp only [Mut.read_bind_run] at h
    cases ht : throttleCon E x2 with
    | err e => rw [ht] at h; injection h with h1; cases h1
    | ub => rw [ht] at h; injection h with h1; cases h1
    | ok b =>
      rw [ht] at h
      injection h with h1
      injection h1 with h1
      subst h1
      refine ⟨s, rfl, List.take_left' rfl, ?_, fun i hi => ?_⟩
      · have := mapM_length _ _ ht
        rw [List.length_range] at this
        rw [List.length_append, this, hn]
        rfl
      · obtain ⟨y, hy, hb⟩ := mapM_getElem _ _ ht (i := i) (x := i) (List.getElem?_range (hn ▸ hi))
        rw [htr] at hy
        cases hu : triple l.throttles (3 * i) (3 * i + 1) (3 * i + 2) with
        | ok u =>
          rw [hu, Res.ok_bind] at hy
          injection hy with hy
          refine ⟨u, rfl, ?_⟩
          rw [List.getElem?_append_right (show s.toList.length ≤ 7 + i from Nat.le_add_right 7 i),
            show 7 + i - s.toList.length = i from Nat.add_sub_cancel_left 7 i, hb, hy]
        | err e => rw [hu] at hy; cases hy
        | ub => rw [hu] at hy; cases hy

/-- A chromosome for the default leg (two segments) that is accepted. -/
example : (setAndComputeConstraints id toyEnv
    (exSt.toList ++ [1, 0, 0, 0, 1, 0] ++ exSt.toList ++ [2]) (Leg.default toyEnv 1)).1.isOk = true := by
  decide +kernel

end Kep3.HF
