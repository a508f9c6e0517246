import Verif.SF.Props42
import Verif.HF.Props49

/-!
# C80: attributes of legs read back what was assigned

The attributes of `pykep.leg.sims_flanagan` and `sims_flanagan_hf` (pykep/core.cpp:482-500, 599-625) are pairs of a getter
and a setter of the C++ classes. An accepted assignment is what is read afterwards, and the other attributes keep their
values; so do the functions `set` and `set_throttles` with several arguments, and the computations of the high-fidelity leg,
which change its integrators.
-/

namespace Kep3.PyAttr

/-- The attributes of a Sims-Flanagan leg, in the order of the constructor, pykep/core.cpp:465-471. -/
structure Attrs where
  rvs : RV Dbl
  ms : Dbl
  throttles : List Dbl
  rvf : RV Dbl
  mf : Dbl
  tof : Dbl
  maxThrust : Dbl
  isp : Dbl
  mu : Dbl
  cut : Dbl

/-- The getters, src/leg/sims_flanagan.cpp:143-182. -/
def sf (l : SF.Leg Dbl) : Attrs :=
  ⟨l.rvs, l.ms, l.throttles, l.rvf, l.mf, l.tof, l.maxThrust, l.isp, l.mu, l.cut⟩

/-- What a call asks for. -/
def sfWanted (a : Attrs) : SF.Op → Attrs
  | .tof x => { a with tof := x }
  | .rvs x => { a with rvs := x }
  | .ms x => { a with ms := x }
  | .throttles t => { a with throttles := t }
  | .range t i1 i2 => { a with throttles := (t.take i2).drop i1 }
  | .rvf x => { a with rvf := x }
  | .mf x => { a with mf := x }
  | .maxThrust x => { a with maxThrust := x }
  | .isp x => { a with isp := x }
  | .mu x => { a with mu := x }
  | .cut x => { a with cut := x }
  | .set rvs ms t rvf mf tof mt isp mu cut => ⟨rvs, ms, t, rvf, mf, tof, mt, isp, mu, cut⟩

theorem call_ok {σ α β : Type} {r : Res α} {f : α → Mut σ β} {s s' : σ} {b : β} (h : (Mut.call r >>= f) s = (.ok b, s')) :
    ∃ a, r = .ok a ∧ f a s = (.ok b, s') := by
  cases r with
  | ok a => exact ⟨a, rfl, h⟩
  | err e => rw [Mut.call_err_bind] at h; simp at h
  | ub => rw [Mut.call_ub_bind] at h; simp at h

theorem read_ok {σ α β : Type} {r : σ → Res α} {f : α → Mut σ β} {s s' : σ} {b : β}
    (h : (Mut.read r >>= f) s = (.ok b, s')) : ∃ a, r s = .ok a ∧ f a s = (.ok b, s') := by
  rw [Mut.read_bind_run] at h
  cases hr : r s with
  | ok a => rw [hr] at h; exact ⟨a, rfl, h⟩
  | err e => rw [hr] at h; simp at h
  | ub => rw [hr] at h; simp at h

theorem sf_updateSegs {fl : ℚ → ℚ} {l l' : SF.Leg Dbl} (h : SF.updateSegs fl l = (.ok (), l')) : sf l' = sf l := by
  unfold SF.updateSegs at h
  rw [Mut.assign_bind_run] at h
  obtain ⟨f, -, h⟩ := read_ok h
  simp only [Mut.assign_bind_run, Mut.assign_run, Prod.mk.injEq, true_and] at h
  subst h
  rfl

/-- **C80**: after an accepted call the attributes of a Sims-Flanagan leg are the ones asked for, and no other has changed;
after a rejected call all are as before. For every call, every state of the leg and every rounding. -/
theorem C80_sims_flanagan (fl : ℚ → ℚ) (op : SF.Op) (l l' : SF.Leg Dbl) :
    (op.run fl l = (.ok (), l') → sf l' = sfWanted (sf l) op) ∧ (∀ e, op.run fl l = (.err e, l') → sf l' = sf l) := by
  refine ⟨fun h => ?_, fun e h => by rw [SF.C42_throwing_call_changes_nothing fl op l l' e h]⟩
  have drop_take : ∀ (t : List Dbl) (i1 i2 : ℕ), (t.drop i1).take (i2 - i1) = (t.take i2).drop i1 := by
    intro t i1 i2; rw [List.drop_take]
  cases op with
  | tof x => obtain ⟨_, -, h⟩ := call_ok h; simp only [Mut.assign_run, Prod.mk.injEq, true_and] at h; subst h; rfl
  | maxThrust x => obtain ⟨_, -, h⟩ := call_ok h; simp only [Mut.assign_run, Prod.mk.injEq, true_and] at h; subst h; rfl
  | isp x => obtain ⟨_, -, h⟩ := call_ok h; simp only [Mut.assign_run, Prod.mk.injEq, true_and] at h; subst h; rfl
  | mu x => obtain ⟨_, -, h⟩ := call_ok h; simp only [Mut.assign_run, Prod.mk.injEq, true_and] at h; subst h; rfl
  | rvs x => simp only [SF.Op.run, SF.setRvs, Mut.assign_run, Prod.mk.injEq, true_and] at h; subst h; rfl
  | rvf x => simp only [SF.Op.run, SF.setRvf, Mut.assign_run, Prod.mk.injEq, true_and] at h; subst h; rfl
  | ms x => simp only [SF.Op.run, SF.setMs, Mut.assign_run, Prod.mk.injEq, true_and] at h; subst h; rfl
  | mf x => simp only [SF.Op.run, SF.setMf, Mut.assign_run, Prod.mk.injEq, true_and] at h; subst h; rfl
  | throttles t =>
    obtain ⟨_, -, h⟩ := call_ok h
    rw [Mut.assign_bind_run] at h
    rw [sf_updateSegs h]; rfl
  | range t i1 i2 =>
    obtain ⟨_, -, h⟩ := call_ok h
    obtain ⟨_, -, h⟩ := call_ok h
    rw [Mut.assign_bind_run] at h
    rw [sf_updateSegs h]
    simp only [sf, sfWanted, drop_take]
  | cut x =>
    obtain ⟨_, -, h⟩ := call_ok h
    rw [Mut.assign_bind_run] at h
    obtain ⟨f, -, h⟩ := read_ok h
    simp only [Mut.assign_bind_run, Mut.assign_run, Prod.mk.injEq, true_and] at h
    subst h; rfl
  | set rvs ms t rvf mf tof mt isp mu cut =>
    obtain ⟨_, -, h⟩ := read_ok h
    simp only [Mut.assign_bind_run] at h
    rw [sf_updateSegs h]; rfl

/-- The attributes of the high-fidelity leg, pykep/core.cpp:582-588 and 599-625: `rvs` and `ms` are read from `rvms`. -/
structure HfAttrs where
  rvms : RV Dbl × Dbl
  throttles : List Dbl
  rvmf : RV Dbl × Dbl
  tof : Dbl
  maxThrust : Dbl
  isp : Dbl
  mu : Dbl
  cut : Dbl
  tol : Dbl

/-- The getters, src/leg/sims_flanagan_hf.cpp:319-368, 391-398. -/
def hf (l : HF.Leg Dbl) : HfAttrs :=
  ⟨(l.rvms.rv, l.rvms.m), l.throttles, (l.rvmf.rv, l.rvmf.m), l.tof, l.maxThrust, l.isp, l.mu, l.cut, l.tol⟩

/-- What a call asks for. -/
def hfWanted (a : HfAttrs) : HF.Op → HfAttrs
  | .tof x => { a with tof := x }
  | .rvs x => { a with rvms := (x, a.rvms.2) }
  | .ms x => { a with rvms := (a.rvms.1, x) }
  | .throttles t => { a with throttles := t }
  | .range t i1 i2 => { a with throttles := (t.take i2).drop i1 }
  | .rvf x => { a with rvmf := (x, a.rvmf.2) }
  | .mf x => { a with rvmf := (a.rvmf.1, x) }
  | .maxThrust x => { a with maxThrust := x }
  | .isp x => { a with isp := x }
  | .mu x => { a with mu := x }
  | .cut x => { a with cut := x }
  | .tol x => { a with tol := x }
  | .rvms x => { a with rvms := (x.rv, x.m) }
  | .rvmf x => { a with rvmf := (x.rv, x.m) }
  | .setRv rvs ms t rvf mf tof mt isp mu cut tol => ⟨(rvs, ms), t, (rvf, mf), tof, mt, isp, mu, cut, tol⟩
  | .set rvms t rvmf tof mt isp mu cut tol => ⟨(rvms.rv, rvms.m), t, (rvmf.rv, rvmf.m), tof, mt, isp, mu, cut, tol⟩
  | .set4 rvms t rvmf tof => { a with rvms := (rvms.rv, rvms.m), throttles := t, rvmf := (rvmf.rv, rvmf.m), tof := tof }
  | .mismatch => a
  | .gradients => a

theorem bind_ok {σ α β : Type} {m : Mut σ α} {f : α → Mut σ β} {s s' : σ} {b : β} (h : (m >>= f) s = (.ok b, s')) :
    ∃ a s1, m s = (.ok a, s1) ∧ f a s1 = (.ok b, s') := by
  rw [Mut.bind_run] at h
  generalize hm : m s = r at h
  obtain ⟨r, s1⟩ := r
  cases r with
  | ok a => exact ⟨a, s1, rfl, h⟩
  | err e => simp at h
  | ub => simp at h

theorem hf_updateSegs {fl : ℚ → ℚ} {l l' : HF.Leg Dbl} (h : HF.updateSegs fl l = (.ok (), l')) : hf l' = hf l := by
  unfold HF.updateSegs at h
  rw [Mut.assign_bind_run] at h
  obtain ⟨f, -, h⟩ := read_ok h
  simp only [Mut.assign_bind_run, Mut.assign_run, Prod.mk.injEq, true_and] at h
  subst h
  rfl

theorem hf_updateThrusts {E : HF.Env Dbl} {l l' : HF.Leg Dbl} (h : HF.updateThrusts E l = (.ok (), l')) : hf l' = hf l := by
  simp only [HF.updateThrusts, Mut.assign_run, Prod.mk.injEq, true_and] at h
  subst h
  rfl

theorem hf_segsThrusts {fl : ℚ → ℚ} {E : HF.Env Dbl} {l l' : HF.Leg Dbl}
    (h : (HF.updateSegs fl >>= fun _ => HF.updateThrusts E) l = (.ok (), l')) : hf l' = hf l := by
  obtain ⟨_, l1, h1, h2⟩ := bind_ok h
  rw [hf_updateThrusts h2, hf_updateSegs h1]

theorem hf_setTail {fl : ℚ → ℚ} {E : HF.Env Dbl} {l l' : HF.Leg Dbl} (h : HF.setTail fl E l = (.ok (), l')) :
    hf l' = hf l := by
  obtain ⟨_, l1, h1, h2⟩ := bind_ok h
  obtain ⟨_, -, h2⟩ := read_ok h2
  rw [hf_updateThrusts h2, hf_updateSegs h1]

/-- **C80**: the same for the high-fidelity leg, for accepted calls; computations change no attribute, whether they succeed
or not. (What a rejected `set` changes: `C49`.) -/
theorem C80_sims_flanagan_hf (fl : ℚ → ℚ) (E : HF.Env Dbl) (op : HF.Op) (l l' : HF.Leg Dbl) :
    (op.run fl E l = (.ok (), l') → hf l' = hfWanted (hf l) op) ∧
    hf (HF.Op.run fl E .mismatch l).2 = hf l ∧ hf (HF.Op.run fl E .gradients l).2 = hf l := by
  have hm : ∀ {β : Type} (m : Mut (HF.Leg Dbl) β), ((m >>= fun _ => pure ()) l).2 = (m l).2 := by
    intro β m
    rw [Mut.bind_run]
    generalize m l = r
    obtain ⟨r, l1⟩ := r
    cases r <;> rfl
  refine ⟨fun h => ?_, ?_, ?_⟩
  rotate_left
  · exact (congrArg hf (hm (HF.computeMismatch E))).trans rfl
  · exact (congrArg hf (hm (HF.computeAllGradients E))).trans rfl
  cases op with
  | tof x => obtain ⟨_, -, h⟩ := call_ok h; simp only [Mut.assign_run, Prod.mk.injEq, true_and] at h; subst h; rfl
  | maxThrust x => obtain ⟨_, -, h⟩ := call_ok h; simp only [Mut.assign_run, Prod.mk.injEq, true_and] at h; subst h; rfl
  | isp x => obtain ⟨_, -, h⟩ := call_ok h; simp only [Mut.assign_run, Prod.mk.injEq, true_and] at h; subst h; rfl
  | mu x => obtain ⟨_, -, h⟩ := call_ok h; simp only [Mut.assign_run, Prod.mk.injEq, true_and] at h; subst h; rfl
  | tol x => obtain ⟨_, -, h⟩ := call_ok h; simp only [Mut.assign_run, Prod.mk.injEq, true_and] at h; subst h; rfl
  | rvs x => simp only [HF.Op.run, HF.setRvs, Mut.assign_run, Prod.mk.injEq, true_and] at h; subst h; rfl
  | rvf x => simp only [HF.Op.run, HF.setRvf, Mut.assign_run, Prod.mk.injEq, true_and] at h; subst h; rfl
  | ms x => simp only [HF.Op.run, HF.setMs, Mut.assign_run, Prod.mk.injEq, true_and] at h; subst h; rfl
  | mf x => simp only [HF.Op.run, HF.setMf, Mut.assign_run, Prod.mk.injEq, true_and] at h; subst h; rfl
  | rvms x => simp only [HF.Op.run, HF.setRvms, Mut.assign_run, Prod.mk.injEq, true_and] at h; subst h; rfl
  | rvmf x => simp only [HF.Op.run, HF.setRvmf, Mut.assign_run, Prod.mk.injEq, true_and] at h; subst h; rfl
  | throttles t =>
    obtain ⟨_, -, h⟩ := call_ok h
    rw [Mut.assign_bind_run] at h
    rw [hf_segsThrusts h]; rfl
  | range t i1 i2 =>
    obtain ⟨_, -, h⟩ := call_ok h
    obtain ⟨_, -, h⟩ := call_ok h
    rw [Mut.assign_bind_run] at h
    rw [hf_segsThrusts h]
    simp only [hf, hfWanted, ← List.drop_take]
  | cut x =>
    obtain ⟨_, -, h⟩ := call_ok h
    rw [Mut.assign_bind_run] at h
    obtain ⟨f, -, h⟩ := read_ok h
    simp only [Mut.assign_bind_run, Mut.assign_run, Prod.mk.injEq, true_and] at h
    subst h; rfl
  | setRv rvs ms t rvf mf tof mt isp mu cut tol =>
    simp only [HF.Op.run, HF.setAllRv, HF.setRvs, HF.setMs, HF.setRvf, HF.setMf, Mut.assign_bind_run] at h
    rw [hf_setTail h]; rfl
  | set rvms t rvmf tof mt isp mu cut tol =>
    simp only [HF.Op.run, HF.setAll, HF.setRvms, HF.setRvmf, Mut.assign_bind_run] at h
    rw [hf_setTail h]; rfl
  | set4 rvms t rvmf tof =>
    simp only [HF.Op.run, HF.set4, HF.setRvms, HF.setRvmf, Mut.assign_bind_run] at h
    rw [hf_setTail h]; rfl
  | mismatch =>
    obtain ⟨_, l1, h1, h2⟩ := bind_ok h
    simp only [Mut.pure_run, Prod.mk.injEq, true_and] at h2
    rw [← h2, show l1 = (HF.computeMismatch E l).2 by rw [h1]]; rfl
  | gradients =>
    obtain ⟨_, l1, h1, h2⟩ := bind_ok h
    simp only [Mut.pure_run, Prod.mk.injEq, true_and] at h2
    rw [← h2, show l1 = (HF.computeAllGradients E l).2 by rw [h1]]; rfl

theorem res_bind_ok {α β : Type} {m : Res α} {f : α → Res β} {b : β} (h : (m >>= f) = .ok b) :
    ∃ a, m = .ok a ∧ f a = .ok b := by
  cases m with
  | ok a => exact ⟨a, rfl, h⟩
  | err e => simp at h
  | ub => simp at h

/-- **C80**: the attributes of a new leg are the arguments of the constructor: for the Sims-Flanagan leg and the two
constructors of the high-fidelity leg. -/
theorem C80_constructors (fl : ℚ → ℚ) (E : HF.Env Dbl) (rvs rvf : RV Dbl) (s f : HF.St Dbl) (t : List Dbl)
    (ms mf tof mt isp mu cut tol : Dbl) :
    (∀ l, SF.Leg.make fl rvs ms t rvf mf tof mt isp mu cut = .ok l → sf l = ⟨rvs, ms, t, rvf, mf, tof, mt, isp, mu, cut⟩) ∧
    (∀ l, HF.Leg.make fl E s t f tof mt isp mu cut tol = .ok l →
      hf l = ⟨(s.rv, s.m), t, (f.rv, f.m), tof, mt, isp, mu, cut, tol⟩) ∧
    (∀ l, HF.Leg.makeRv fl E rvs ms t rvf mf tof mt isp mu cut tol = .ok l →
      hf l = ⟨(rvs, ms), t, (rvf, mf), tof, mt, isp, mu, cut, tol⟩) := by
  have hm : ∀ s f l, HF.Leg.make fl E s t f tof mt isp mu cut tol = .ok l →
      hf l = ⟨(s.rv, s.m), t, (f.rv, f.m), tof, mt, isp, mu, cut, tol⟩ := by
    intro s f l h
    obtain ⟨n, -, h⟩ := res_bind_ok h
    obtain ⟨_, -, h⟩ := res_bind_ok h
    cases h
    rfl
  refine ⟨fun l h => ?_, hm s f, fun l h => ?_⟩
  · obtain ⟨n, -, h⟩ := res_bind_ok h
    obtain ⟨_, -, h⟩ := res_bind_ok h
    cases h
    rfl
  · obtain ⟨l1, h1, h⟩ := res_bind_ok h
    have := hm _ _ _ h1
    cases h
    simp only [hf, HfAttrs.mk.injEq, Prod.mk.injEq] at this ⊢
    exact ⟨trivial, this.2.1, trivial, this.2.2.2⟩

/-- The arguments by default of the two Python classes, pykep/core.cpp:468-471 and 585-588, with `x` for `pi / 2`; the
tolerance, which Python cannot give, is that of include/kep3/leg/sims_flanagan_hf.hpp:49. -/
def pyDefaults (x : Dbl) : Attrs :=
  ⟨⟨⟨1, 0, 0⟩, ⟨0, 1, 0⟩⟩, 1, [0, 0, 0, 0, 0, 0], ⟨⟨0, 1, 0⟩, ⟨.fin (-1), 0, 0⟩⟩, 1, x, 1, 1, 1, .fin (1 / 2)⟩

/-- **C80**: `leg.sims_flanagan()` and `leg.sims_flanagan_hf()` in Python are the legs made by the C++ constructors without
arguments, in all members: numbers of segments, thrusts and integrators included. -/
theorem C80_defaults (E : HF.Env Dbl) {fl : ℚ → ℚ} (hfl : fl 1 = 1) {x : Dbl} (hx : x.lt 0 = false) {a b : Attrs}
    (ha : a = pyDefaults SF.Leg.default.tof) (hb : b = pyDefaults x) :
    SF.Leg.make fl a.rvs a.ms a.throttles a.rvf a.mf a.tof a.maxThrust a.isp a.mu a.cut = .ok SF.Leg.default ∧
    HF.Leg.makeRv fl E b.rvs b.ms b.throttles b.rvf b.mf b.tof b.maxThrust b.isp b.mu b.cut (.fin (1 / 10 ^ 16)) =
      .ok (HF.Leg.default E x) := by
  subst ha hb
  have hseg : SF.nsegFwdOf fl 2 (.fin (1 / 2)) = .ok 1 := by
    have e : ((2 : ℕ) : ℚ) * (1 / 2) = 1 := by norm_num
    simp only [SF.nsegFwdOf, Dbl.natMul, e, hfl, Dbl.castUnsigned]
    decide
  have hn : SF.nsegOf (List.length ([0, 0, 0, 0, 0, 0] : List Dbl)) = 2 := by decide
  have hs : SF.sanityChecks [0, 0, 0, 0, 0, 0] (.fin (157 / 100)) 1 1 1 (.fin (1 / 2)) 2 1 (SF.usub 2 1) = .ok () := by
    decide +kernel
  have hh : HF.sanityChecks [0, 0, 0, 0, 0, 0] x 1 1 1 (.fin (1 / 2)) (.fin (1 / 10 ^ 16)) 2 1 (SF.usub 2 1) = .ok () := by
    have h1 : SF.checkTof x = .ok () := by simp only [SF.checkTof, SF.throwIf, hx]; rfl
    unfold HF.sanityChecks
    rw [h1]
    decide +kernel
  constructor
  · simp only [SF.Leg.make, pyDefaults, hn, hseg, Res.ok_bind]
    rw [show SF.Leg.default.tof = .fin (157 / 100) from rfl, hs]
    rfl
  · simp only [HF.Leg.makeRv, HF.Leg.make, pyDefaults, hn, hseg, Res.ok_bind]
    rw [hh]
    rfl

/-- **C60**: an accepted call of `set_and_compute_constraints` leaves a leg with the states, throttles and time of flight of
the chromosome and the other attributes it had; and the constraints returned are those of that leg: asked for again, they
are the same. -/
theorem C60_result {fl : ℚ → ℚ} {E : HF.Env Dbl} {rvms rvmf : HF.St Dbl} {t extra c : List Dbl} {tof : Dbl}
    {l l' : HF.Leg Dbl} (ht : t.length = 3 * l.nseg)
    (h : HF.setAndComputeConstraints fl E (rvms.toList ++ t ++ rvmf.toList ++ tof :: extra) l = (.ok c, l')) :
    hf l' = { hf l with rvms := (rvms.rv, rvms.m), throttles := t, rvmf := (rvmf.rv, rvmf.m), tof := tof } ∧
      (HF.computeConstraints E l').1 = .ok c := by
  rw [HF.C60_chromosome rvms rvmf t extra tof l ht] at h
  obtain ⟨_, l1, h1, h2⟩ := bind_ok h
  have h1' := (C80_sims_flanagan_hf fl E (.set4 rvms t rvmf tof) l l1).1 h1
  have hl' : l' = { l1 with tas := (HF.mismatchOn E l1 l1.tas).2 } := by
    obtain ⟨s, l2, h3, h4⟩ := bind_ok h2
    obtain ⟨b, -, h4⟩ := read_ok h4
    have : l2 = l' := (Prod.mk.injEq .. ▸ h4).2
    rw [← this]
    exact (congrArg Prod.snd h3).symm
  have hc : (HF.computeConstraints E l1).1 = .ok c := congrArg Prod.fst h2
  refine ⟨?_, ?_⟩
  · rw [hl']
    exact h1'
  · rw [← hc, hl']
    exact (HF.constraints_congr (l := l1) rfl (HF.mismatchOn_same E l1 l1.tas).symm).symm

/-- A concrete case for the high-fidelity leg: `leg.ms = 7` and `leg.rvs = …` keep each other. -/
example (E : HF.Env Dbl) (l : HF.Leg Dbl) (rv : RV Dbl) :
    let l1 := (HF.Op.run id E (.ms (.fin 7)) l).2
    let l2 := (HF.Op.run id E (.rvs rv) l1).2
    (HF.Op.run id E (.rvs rv) l1).1 = .ok () ∧ (hf l2).rvms = (rv, .fin 7) ∧ (hf l2).rvmf = (hf l).rvmf :=
  ⟨rfl, rfl, rfl⟩

/-- Concrete cases: an accepted assignment of the cut and of the initial mass of the default leg. -/
example : (SF.Op.run id (.cut 1) SF.Leg.default).1 = .ok () ∧
    (sf (SF.Op.run id (.cut 1) SF.Leg.default).2).cut = 1 ∧
    (sf (SF.Op.run id (.ms (.fin 7)) SF.Leg.default).2).ms = .fin 7 := by decide +kernel

end Kep3.PyAttr
