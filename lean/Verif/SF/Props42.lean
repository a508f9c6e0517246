import Verif.SF.Spec
import Mathlib.Tactic.FinCases

/-!
# C42: accepted data are valid data
-/

namespace Kep3.SF

open Kep3

theorem throwIf_ok {c : Bool} {e : Exc} : throwIf c e = .ok () ↔ c = false := by
  cases c <;> simp [throwIf]

theorem throwIf_ne_ub {c : Bool} {e : Exc} : throwIf c e ≠ .ub := by
  cases c <;> simp [throwIf]

theorem unit_cases {r : Res Unit} (h : r ≠ .ub) : r = .ok () ∨ ∃ e, r = .err e := by
  cases r with
  | ok a => exact .inl rfl
  | err e => exact .inr ⟨e, rfl⟩
  | ub => exact absurd rfl h

theorem lt_zero_false {x : Dbl} (h : x.isNum) : x.lt 0 = false ↔ nonneg x := by
  cases x with
  | nan => exact h.elim
  | ninf => simp [Dbl.lt, nonneg]
  | pinf => simp [Dbl.lt, nonneg]
  | fin q => simp [nonneg]

theorem cut_ok {x : Dbl} (h : x.isNum) : (x.lt 0 || Dbl.lt 1 x) = false ↔ inUnit x := by
  cases x with
  | nan => exact h.elim
  | ninf => simp [Dbl.lt, inUnit]
  | pinf => simp [Dbl.lt, inUnit]
  | fin q => simp [inUnit]

theorem three_iff (t : List Dbl) : (checkThrottles t = .ok ()) ↔ ∃ n, t.length = 3 * n ∧ 0 < n := by
  unfold checkThrottles
  constructor
  · intro h
    rcases unit_cases (throwIf_ne_ub (c := t.length % 3 != 0) (e := .logicError)) with h1 | ⟨e, h1⟩
    · rw [h1, Res.ok_bind] at h
      rw [throwIf_ok] at h1 h
      have h3 : t.length % 3 = 0 := by simpa using h1
      have h4 : t.length ≠ 0 := by
        intro h0; rw [List.length_eq_zero_iff] at h0; simp [h0] at h
      exact ⟨t.length / 3, by omega, by omega⟩
    · rw [h1] at h; cases h
  · rintro ⟨n, h1, h2⟩
    have h3 : t.length % 3 = 0 := by omega
    have h4 : t.isEmpty = false := by
      cases t with
      | nil => simp at h1; omega
      | cons a l => rfl
    rw [h3, h4]; rfl

theorem checkThrottles_ne_ub (t : List Dbl) : checkThrottles t ≠ .ub := by
  unfold checkThrottles
  rcases unit_cases (throwIf_ne_ub (c := t.length % 3 != 0) (e := .logicError)) with h1 | ⟨e, h1⟩
  · rw [h1, Res.ok_bind]; exact throwIf_ne_ub
  · rw [h1]; intro h; cases h

theorem checkNseg_ok {n f : ℕ} (hn : n < 2 ^ 32) (hf : f ≤ n) : checkNseg n f (usub n f) = .ok () := by
  unfold checkNseg usub
  rw [throwIf_ok]
  simp only [bne_eq_false_iff_eq]
  omega

/-- The forward segment count for a cut in the unit interval. -/
theorem nsegFwdOf_ok {fl : ℚ → ℚ} (hfl : Dbl.Rounding fl) {n : ℕ} (hn : n < 2 ^ 32) {q : ℚ}
    (h0 : 0 ≤ q) (h1 : q ≤ 1) :
    ∃ f, nsegFwdOf fl n (.fin q) = .ok f ∧ f ≤ n ∧ ⌊(n : ℚ) * q⌋ ≤ (f : ℤ) ∧ (f : ℤ) ≤ ⌈(n : ℚ) * q⌉ := by
  have hn0 : (0 : ℚ) ≤ n := by exact_mod_cast Nat.zero_le n
  have hq0 : 0 ≤ (n : ℚ) * q := mul_nonneg hn0 h0
  have hq1 : (n : ℚ) * q ≤ n := by nlinarith
  have e0 : (0 : ℚ) ≤ fl (n * q) := by
    have := hfl.mono hq0
    rwa [show fl 0 = 0 by simpa using hfl.fix 0 (by norm_num)] at this
  have e1 : fl (n * q) ≤ n := by
    have := hfl.mono hq1
    rwa [hfl.fix n hn.le] at this
  have hnq : (n : ℚ) < 2 ^ 32 := by exact_mod_cast hn
  refine ⟨⌊fl (n * q)⌋.toNat, ?_, ?_, ?_, ?_⟩
  · show (if -1 < fl (n * q) ∧ fl (n * q) < 2 ^ 32 then Res.ok ⌊fl (n * q)⌋.toNat else .ub) = _
    rw [if_pos ⟨by linarith, by linarith⟩]
  · have hz : ⌊fl (n * q)⌋ ≤ (n : ℤ) := by
      have := Int.floor_le_floor e1
      simpa using this
    omega
  · have hfz : (0 : ℤ) ≤ ⌊fl (n * q)⌋ := Int.floor_nonneg.2 e0
    rw [Int.toNat_of_nonneg hfz]
    have hk0 : (0 : ℤ) ≤ ⌊(n : ℚ) * q⌋ := Int.floor_nonneg.2 hq0
    have hkn : ⌊(n : ℚ) * q⌋ ≤ (n : ℤ) := by
      have := Int.floor_le_floor hq1
      simpa using this
    have := hfl.mono (Int.floor_le ((n : ℚ) * q))
    have hfix : fl ((⌊(n : ℚ) * q⌋ : ℤ) : ℚ) = ((⌊(n : ℚ) * q⌋ : ℤ) : ℚ) := by
      have h := hfl.fix ⌊(n : ℚ) * q⌋.toNat (by omega)
      rwa [show ((⌊(n : ℚ) * q⌋.toNat : ℕ) : ℚ) = ((⌊(n : ℚ) * q⌋ : ℤ) : ℚ) by
        rw [← Int.cast_natCast, Int.toNat_of_nonneg hk0]] at h
    rw [hfix] at this
    exact Int.le_floor.2 this
  · have hfz : (0 : ℤ) ≤ ⌊fl (n * q)⌋ := Int.floor_nonneg.2 e0
    rw [Int.toNat_of_nonneg hfz]
    have hk0 : (0 : ℤ) ≤ ⌈(n : ℚ) * q⌉ := Int.ceil_nonneg hq0
    have hkn : ⌈(n : ℚ) * q⌉ ≤ (n : ℤ) := by
      have := Int.ceil_le_ceil hq1
      simpa using this
    have := hfl.mono (Int.le_ceil ((n : ℚ) * q))
    have hfix : fl ((⌈(n : ℚ) * q⌉ : ℤ) : ℚ) = ((⌈(n : ℚ) * q⌉ : ℤ) : ℚ) := by
      have h := hfl.fix ⌈(n : ℚ) * q⌉.toNat (by omega)
      rwa [show ((⌈(n : ℚ) * q⌉.toNat : ℕ) : ℚ) = ((⌈(n : ℚ) * q⌉ : ℤ) : ℚ) by
        rw [← Int.cast_natCast, Int.toNat_of_nonneg hk0]] at h
    rw [hfix] at this
    have := Int.floor_le_floor this
    simpa using this

theorem usub_le {n f : ℕ} (hn : n < 2 ^ 32) (hf : f ≤ n) : usub n f = n - f := by
  unfold usub; omega

theorem nsegOf_eq {len n : ℕ} (h : len = 3 * n) (hl : len < 2 ^ 32) : nsegOf len = n := by
  unfold nsegOf; omega

theorem sanity_ok {t : List Dbl} {tof mt isp mu cut : Dbl} {n f : ℕ}
    (h1 : tof.isNum) (h2 : mt.isNum) (h3 : isp.isNum) (h4 : mu.isNum) (h5 : cut.isNum)
    (hn : n < 2 ^ 32) (hf : f ≤ n) :
    sanityChecks t tof mt isp mu cut n f (usub n f) = .ok () ↔ ValidData t tof mt isp mu cut := by
  unfold sanityChecks checkTof checkMaxThrust checkIsp checkMu checkCut
  rw [checkNseg_ok hn hf]
  constructor
  · intro h
    rcases unit_cases (checkThrottles_ne_ub t) with e | ⟨_, e⟩ <;> rw [e] at h
    swap; · cases h
    rw [Res.ok_bind] at h
    cases k1 : tof.lt 0 <;> rw [k1] at h
    swap; · cases h
    simp only [throwIf, Bool.false_eq_true, if_false, Res.ok_bind] at h
    cases k2 : mt.lt 0 <;> rw [k2] at h
    swap; · cases h
    simp only [Bool.false_eq_true, if_false, Res.ok_bind] at h
    cases k3 : isp.lt 0 <;> rw [k3] at h
    swap; · cases h
    simp only [Bool.false_eq_true, if_false, Res.ok_bind] at h
    cases k4 : mu.lt 0 <;> rw [k4] at h
    swap; · cases h
    simp only [Bool.false_eq_true, if_false, Res.ok_bind] at h
    cases k5 : (cut.lt 0 || Dbl.lt 1 cut) <;> rw [k5] at h
    swap; · cases h
    exact ⟨(three_iff t).1 e, (lt_zero_false h1).1 k1, (lt_zero_false h2).1 k2,
      (lt_zero_false h3).1 k3, (lt_zero_false h4).1 k4, (cut_ok h5).1 k5⟩
  · intro h
    rw [(three_iff t).2 h.three, (lt_zero_false h1).2 h.tof, (lt_zero_false h2).2 h.maxThrust,
      (lt_zero_false h3).2 h.isp, (lt_zero_false h4).2 h.mu, (cut_ok h5).2 h.cut]
    rfl

/-- **C42, constructor.** For a cut in the unit interval, fewer than 2^32 throttle components and
arguments that are numbers, the constructor succeeds exactly on valid data, and the leg it returns
stores the arguments and has the right segment numbers. -/
theorem C42_constructor {fl : ℚ → ℚ} (hfl : Dbl.Rounding fl) (rvs rvf : RV Dbl)
    (ms mf tof mt isp mu cut : Dbl) (t : List Dbl) (h1 : tof.isNum) (h2 : mt.isNum) (h3 : isp.isNum)
    (h4 : mu.isNum) (h5 : inUnit cut) (hl : t.length < 2 ^ 32) :
    (∃ l, Leg.make fl rvs ms t rvf mf tof mt isp mu cut = .ok l) ↔ ValidData t tof mt isp mu cut := by
  obtain ⟨q, rfl, hq0, hq1⟩ := h5
  have hn : nsegOf t.length < 2 ^ 32 := by unfold nsegOf; omega
  obtain ⟨f, hf, hfn, -, -⟩ := nsegFwdOf_ok hfl hn hq0 hq1
  unfold Leg.make
  simp only [hf, Res.ok_bind]
  have hs := sanity_ok (t := t) h1 h2 h3 h4 (cut := .fin q) trivial hn hfn
  constructor
  · rintro ⟨l, h⟩
    cases hc : sanityChecks t tof mt isp mu (.fin q) (nsegOf t.length) f (usub (nsegOf t.length) f) with
    | ok a => exact hs.1 hc
    | err e => rw [hc] at h; cases h
    | ub => rw [hc] at h; cases h
  · intro h
    rw [hs.2 h]
    exact ⟨_, rfl⟩

theorem make_fields {fl : ℚ → ℚ} (hfl : Dbl.Rounding fl) {rvs rvf : RV Dbl}
    {ms mf tof mt isp mu cut : Dbl} {t : List Dbl} {l : Leg Dbl}
    (h1 : tof.isNum) (h2 : mt.isNum) (h3 : isp.isNum) (h4 : mu.isNum) (h5 : inUnit cut)
    (hl : t.length < 2 ^ 32)
    (h : Leg.make fl rvs ms t rvf mf tof mt isp mu cut = .ok l) :
    l.Valid ∧ l.SegsOk ∧ l.rvs = rvs ∧ l.ms = ms ∧ l.throttles = t ∧ l.rvf = rvf ∧ l.mf = mf ∧
      l.tof = tof ∧ l.maxThrust = mt ∧ l.isp = isp ∧ l.mu = mu ∧ l.cut = cut := by
  have hv := (C42_constructor hfl rvs rvf ms mf tof mt isp mu cut t h1 h2 h3 h4 h5 hl).1 ⟨l, h⟩
  obtain ⟨q, rfl, hq0, hq1⟩ := h5
  have hn : nsegOf t.length < 2 ^ 32 := by unfold nsegOf; omega
  obtain ⟨f, hf, hfn, hb0, hb1⟩ := nsegFwdOf_ok hfl hn hq0 hq1
  have hs := (sanity_ok (t := t) h1 h2 h3 h4 (cut := .fin q) trivial hn hfn).2 hv
  unfold Leg.make at h
  simp only [hf, Res.ok_bind, hs] at h
  injection h with h
  subst h
  obtain ⟨m, hm, hm0⟩ := hv.three
  refine ⟨hv, ⟨?_, ?_, ?_⟩, rfl, rfl, rfl, rfl, rfl, rfl, rfl, rfl, rfl, rfl⟩
  · simp only [nsegOf_eq hm hl]; exact hm
  · simp only [usub_le hn hfn]; omega
  · intro q' hq'; injection hq' with hq'; subst hq'; exact ⟨hb0, hb1⟩

/-- **C42, what the constructor stores.** -/
theorem C42_constructor_stores {fl : ℚ → ℚ} (hfl : Dbl.Rounding fl) {rvs rvf : RV Dbl}
    {ms mf tof mt isp mu cut : Dbl} {t : List Dbl} {l : Leg Dbl}
    (h1 : tof.isNum) (h2 : mt.isNum) (h3 : isp.isNum) (h4 : mu.isNum) (h5 : inUnit cut)
    (hl : t.length < 2 ^ 32)
    (h : Leg.make fl rvs ms t rvf mf tof mt isp mu cut = .ok l) :
    l.Valid ∧ l.SegsOk ∧ l.rvs = rvs ∧ l.ms = ms ∧ l.throttles = t ∧ l.rvf = rvf ∧ l.mf = mf ∧
      l.tof = tof ∧ l.maxThrust = mt ∧ l.isp = isp ∧ l.mu = mu ∧ l.cut = cut :=
  make_fields hfl h1 h2 h3 h4 h5 hl h

/-- The hypotheses are met: three segments, cut at 1/2, one forward segment. -/
example : Leg.make id Leg.default.rvs 1 [1, 0, 0, 0, 1, 0, 0, 0, 1] Leg.default.rvf 1 1 1 1 1 (.fin (1 / 2)) =
    .ok ⟨Leg.default.rvs, 1, [1, 0, 0, 0, 1, 0, 0, 0, 1], Leg.default.rvf, 1, 1, 1, 1, 1, .fin (1 / 2), 3, 1, 2⟩ := by
  decide +kernel

theorem updateSegs_run {fl : ℚ → ℚ} (hfl : Dbl.Rounding fl) {l : Leg Dbl} {n : ℕ} {q : ℚ}
    (hl : l.throttles.length = 3 * n) (hl2 : l.throttles.length < 2 ^ 32) (hc : l.cut = .fin q)
    (h0 : 0 ≤ q) (h1 : q ≤ 1) :
    ∃ f, updateSegs fl l = (.ok (), { l with nseg := n, nsegFwd := f, nsegBck := n - f }) ∧
      f ≤ n ∧ ⌊(n : ℚ) * q⌋ ≤ (f : ℤ) ∧ (f : ℤ) ≤ ⌈(n : ℚ) * q⌉ := by
  have hn : n < 2 ^ 32 := by omega
  obtain ⟨f, hf, hfn, hb⟩ := nsegFwdOf_ok hfl hn h0 h1
  refine ⟨f, ?_, hfn, hb⟩
  unfold updateSegs
  simp only [Mut.assign_bind_run, Mut.read_bind_run, nsegOf_eq hl hl2, hc, hf, Mut.assign_run,
    usub_le hn hfn]

theorem nsegOk_of {l : Leg Dbl} {n f : ℕ} {q : ℚ}
    (hl : l.throttles.length = 3 * n) (hc : l.cut = .fin q) (hfn : f ≤ n)
    (hb : ⌊(n : ℚ) * q⌋ ≤ (f : ℤ) ∧ (f : ℤ) ≤ ⌈(n : ℚ) * q⌉)
    (h1 : l.nseg = n) (h2 : l.nsegFwd = f) (h3 : l.nsegBck = n - f) : l.SegsOk := by
  refine ⟨by rw [h1]; exact hl, by omega, ?_⟩
  intro q' hq'
  rw [hc] at hq'; injection hq' with hq'; subst hq'
  rw [h1, h2]; exact hb

/-- One sane call on a valid leg: no undefined behaviour, the result is a valid leg. -/
theorem step_valid {fl : ℚ → ℚ} (hfl : Dbl.Rounding fl) (op : Op) (hop : op.sane) (l : Leg Dbl)
    (hv : l.Valid) (hs : l.SegsOk) (hl : l.throttles.length < 2 ^ 32) :
    (op.run fl l).1 ≠ .ub ∧ (op.run fl l).2.Valid ∧ (op.run fl l).2.SegsOk ∧
      (op.run fl l).2.throttles.length < 2 ^ 32 := by
  have hx : ∀ {x : Dbl} {f : Leg Dbl → Leg Dbl}, x.isNum →
      (nonneg x → (f l).Valid ∧ (f l).SegsOk ∧ (f l).throttles.length < 2 ^ 32) →
      ((Mut.call (throwIf (x.lt 0) .domainError) >>= fun _ => Mut.assign f : Mut (Leg Dbl) Unit) l).1 ≠ .ub ∧
      ((Mut.call (throwIf (x.lt 0) .domainError) >>= fun _ => Mut.assign f : Mut (Leg Dbl) Unit) l).2.Valid ∧
      ((Mut.call (throwIf (x.lt 0) .domainError) >>= fun _ => Mut.assign f : Mut (Leg Dbl) Unit) l).2.SegsOk ∧
      ((Mut.call (throwIf (x.lt 0) .domainError) >>= fun _ => Mut.assign f : Mut (Leg Dbl) Unit) l).2.throttles.length < 2 ^ 32 := by
    intro x f hn h
    cases hc : x.lt 0
    · exact ⟨by simp [throwIf], h ((lt_zero_false hn).1 hc)⟩
    · exact ⟨by simp [throwIf], hv, hs, hl⟩
  obtain ⟨q, hq, hq0, hq1⟩ := hv.cut
  cases op with
  | tof x =>
    exact hx hop fun h => ⟨⟨hv.three, h, hv.maxThrust, hv.isp, hv.mu, hv.cut⟩, ⟨hs.nseg, hs.sum, hs.fwd⟩, hl⟩
  | maxThrust x =>
    exact hx hop fun h => ⟨⟨hv.three, hv.tof, h, hv.isp, hv.mu, hv.cut⟩, ⟨hs.nseg, hs.sum, hs.fwd⟩, hl⟩
  | isp x =>
    exact hx hop fun h => ⟨⟨hv.three, hv.tof, hv.maxThrust, h, hv.mu, hv.cut⟩, ⟨hs.nseg, hs.sum, hs.fwd⟩, hl⟩
  | mu x =>
    exact hx hop fun h => ⟨⟨hv.three, hv.tof, hv.maxThrust, hv.isp, h, hv.cut⟩, ⟨hs.nseg, hs.sum, hs.fwd⟩, hl⟩
  | rvs x => exact ⟨by simp [Op.run, setRvs], ⟨hv.three, hv.tof, hv.maxThrust, hv.isp, hv.mu, hv.cut⟩, ⟨hs.nseg, hs.sum, hs.fwd⟩, hl⟩
  | rvf x => exact ⟨by simp [Op.run, setRvf], ⟨hv.three, hv.tof, hv.maxThrust, hv.isp, hv.mu, hv.cut⟩, ⟨hs.nseg, hs.sum, hs.fwd⟩, hl⟩
  | ms x => exact ⟨by simp [Op.run, setMs], ⟨hv.three, hv.tof, hv.maxThrust, hv.isp, hv.mu, hv.cut⟩, ⟨hs.nseg, hs.sum, hs.fwd⟩, hl⟩
  | mf x => exact ⟨by simp [Op.run, setMf], ⟨hv.three, hv.tof, hv.maxThrust, hv.isp, hv.mu, hv.cut⟩, ⟨hs.nseg, hs.sum, hs.fwd⟩, hl⟩
  | throttles t =>
    have hop : t.length < 2 ^ 32 := hop
    unfold Op.run setThrottles
    rcases unit_cases (checkThrottles_ne_ub t) with e | ⟨_, e⟩
    · simp only [e, Mut.call_ok_bind, Mut.assign_bind_run]
      obtain ⟨n, hn, hn0⟩ := (three_iff t).1 e
      obtain ⟨f, hf, hfn, hb⟩ := updateSegs_run hfl (l := { l with throttles := t }) hn hop hq hq0 hq1
      rw [hf]
      exact ⟨by simp, ⟨⟨n, hn, hn0⟩, hv.tof, hv.maxThrust, hv.isp, hv.mu, hv.cut⟩,
        nsegOk_of hn hq hfn hb rfl rfl rfl, hop⟩
    · simp only [e, Mut.call_err_bind]
      exact ⟨by simp, hv, hs, hl⟩
  | range t i1 i2 =>
    obtain ⟨a1, a2, a3⟩ := hop
    rw [show Op.run fl (.range t i1 i2) = setThrottlesRange fl t i1 i2 from rfl]
    unfold setThrottlesRange
    rw [if_pos ⟨a1, a2⟩]
    simp only [Mut.call_ok_bind]
    cases hc : (((i2 : Int) - i1).tmod 3 != 0 || decide ((i2 : Int) - i1 ≤ 0))
    · simp only [throwIf, Bool.false_eq_true, if_false, Mut.call_ok_bind, Mut.assign_bind_run]
      simp only [Bool.or_eq_false_iff, bne_eq_false_iff_eq, decide_eq_false_iff_not, not_le] at hc
      obtain ⟨c1, c2⟩ := hc
      rw [Int.tmod_eq_emod_of_nonneg c2.le] at c1
      have hlen : ((t.drop i1).take (i2 - i1)).length = 3 * ((i2 - i1) / 3) := by
        rw [List.length_take, List.length_drop, Nat.min_eq_left (by omega)]
        omega
      have hlen2 : ((t.drop i1).take (i2 - i1)).length < 2 ^ 32 := by
        rw [List.length_take, List.length_drop, Nat.min_eq_left (by omega)]
        omega
      obtain ⟨f, hf, hfn, hb⟩ := updateSegs_run hfl
        (l := { l with throttles := (t.drop i1).take (i2 - i1) }) hlen hlen2 hq hq0 hq1
      rw [hf]
      exact ⟨by simp, ⟨⟨_, hlen, by omega⟩, hv.tof, hv.maxThrust, hv.isp, hv.mu, hv.cut⟩,
        nsegOk_of hlen hq hfn hb rfl rfl rfl, hlen2⟩
    · simp only [throwIf, if_true, Mut.call_err_bind]
      exact ⟨by simp, hv, hs, hl⟩
  | cut x =>
    rw [show Op.run fl (.cut x) = setCut fl x from rfl]
    unfold setCut checkCut
    cases hc : (x.lt 0 || Dbl.lt 1 x)
    · obtain ⟨q', rfl, hq0', hq1'⟩ := (cut_ok hop).1 hc
      have hn : l.nseg < 2 ^ 32 := by have := hs.nseg; omega
      obtain ⟨f, hf, hfn, hb⟩ := nsegFwdOf_ok hfl hn hq0' hq1'
      simp only [throwIf, Bool.false_eq_true, if_false, Mut.call_ok_bind, Mut.assign_bind_run,
        Mut.read_bind_run, hf, Mut.assign_run]
      exact ⟨by simp, ⟨hv.three, hv.tof, hv.maxThrust, hv.isp, hv.mu, ⟨q', rfl, hq0', hq1'⟩⟩,
        nsegOk_of hs.nseg rfl hfn hb rfl rfl (usub_le hn hfn), hl⟩
    · simp only [throwIf, if_true, Mut.call_err_bind]
      exact ⟨by simp, hv, hs, hl⟩
  | set => exact hop.elim

/-- **C42, partial.** Starting from a valid leg, after any sequence of calls of the individual
setters with arguments that are numbers (successful or throwing, the caller carrying on), there has
been no undefined behaviour and the leg is valid with consistent segment numbers.
Missing for the full claim: the member `set` and NaN arguments, for which it is false, see
`C42_set_accepts_anything` and `C42_nan_accepted`. -/
theorem C42_invariant_partial {fl : ℚ → ℚ} (hfl : Dbl.Rounding fl) (ops : List Op)
    (hops : ∀ op ∈ ops, op.sane) (l : Leg Dbl) (hv : l.Valid) (hs : l.SegsOk)
    (hl : l.throttles.length < 2 ^ 32) :
    ∃ l', runOps fl ops l = some l' ∧ l'.Valid ∧ l'.SegsOk := by
  induction ops generalizing l with
  | nil => exact ⟨l, rfl, hv, hs⟩
  | cons op ops ih =>
    obtain ⟨h1, h2, h3, h4⟩ := step_valid hfl op (hops op (by simp)) l hv hs hl
    unfold runOps
    generalize hr : op.run fl l = r at h1 h2 h3 h4
    obtain ⟨o, l'⟩ := r
    cases o with
    | ub => exact absurd rfl h1
    | ok a => exact ih (fun op h => hops op (by simp [h])) l' h2 h3 h4
    | err e => exact ih (fun op h => hops op (by simp [h])) l' h2 h3 h4

/-- The default constructed leg meets the hypotheses. -/
theorem default_valid : Leg.default.Valid ∧ Leg.default.SegsOk ∧
    Leg.default.throttles.length < 2 ^ 32 := by
  refine ⟨⟨⟨2, by decide, by decide⟩, ?_, ?_, ?_, ?_, ⟨1 / 2, rfl, by norm_num, by norm_num⟩⟩,
    ⟨by decide, by decide, ?_⟩, by decide⟩
  · show (0 : ℚ) ≤ 157 / 100
    norm_num
  · simp [Leg.default, nonneg]
  · simp [Leg.default, nonneg]
  · simp [Leg.default, nonneg]
  · intro q hq
    have hq' : (1 / 2 : ℚ) = q := by
      unfold Leg.default at hq; injection hq
    subst hq'
    show ⌊((2 : ℕ) : ℚ) * (1 / 2)⌋ ≤ ((1 : ℕ) : ℤ) ∧ ((1 : ℕ) : ℤ) ≤ ⌈((2 : ℕ) : ℚ) * (1 / 2)⌉
    norm_num

/-- A history with an accepted and a rejected call. -/
example : runOps id [.cut (.fin 2), .throttles [1, 2, 3], .tof (.fin (-1)), .cut 1] Leg.default =
    some { Leg.default with throttles := [1, 2, 3], cut := 1, nseg := 1, nsegFwd := 1, nsegBck := 0 } := by
  decide +kernel

/-- **C42.** A call that throws leaves the leg as it was: for every member function (including
`set`), every argument and every state. -/
theorem C42_throwing_call_changes_nothing (fl : ℚ → ℚ) (op : Op) (l l' : Leg Dbl) (e : Exc)
    (h : op.run fl l = (.err e, l')) : l' = l := by
  have cast_no : ∀ (n : ℕ) (c : Dbl) (e : Exc), nsegFwdOf fl n c ≠ .err e := by
    intro n c e
    unfold nsegFwdOf Dbl.castUnsigned
    split
    · split <;> simp
    · simp
  have upd_no : ∀ (l l' : Leg Dbl) (e : Exc), updateSegs fl l ≠ (.err e, l') := by
    intro l l' e
    unfold updateSegs
    simp only [Mut.assign_bind_run, Mut.read_bind_run]
    cases hc : nsegFwdOf fl (nsegOf l.throttles.length) l.cut with
    | ok a => simp
    | ub => simp
    | err e => exact absurd hc (cast_no _ _ _)
  have chk : ∀ (r : Res Unit) (k : Unit → Mut (Leg Dbl) Unit),
      (∀ l1 e1, k () l ≠ (.err e1, l1)) → (Mut.call r >>= k) l = (.err e, l') → l' = l := by
    intro r k hk h
    cases r with
    | ok a => rw [Mut.call_ok_bind] at h; exact absurd h (hk _ _)
    | err e => rw [Mut.call_err_bind] at h; injection h with _ h; exact h.symm
    | ub => rw [Mut.call_ub_bind] at h; injection h with _ h; exact h.symm
  cases op with
  | tof x => exact chk _ _ (by intros; simp) h
  | maxThrust x => exact chk _ _ (by intros; simp) h
  | isp x => exact chk _ _ (by intros; simp) h
  | mu x => exact chk _ _ (by intros; simp) h
  | rvs x => exact absurd h (by simp [Op.run, setRvs])
  | rvf x => exact absurd h (by simp [Op.run, setRvf])
  | ms x => exact absurd h (by simp [Op.run, setMs])
  | mf x => exact absurd h (by simp [Op.run, setMf])
  | throttles t =>
    refine chk _ _ ?_ h
    intro l1 e1
    rw [Mut.assign_bind_run]; exact upd_no _ _ _
  | range t i1 i2 =>
    rw [show Op.run fl (.range t i1 i2) = setThrottlesRange fl t i1 i2 from rfl] at h
    unfold setThrottlesRange at h
    split at h
    · rw [Mut.call_ok_bind] at h
      refine chk _ _ ?_ h
      intro l1 e1
      rw [Mut.assign_bind_run]; exact upd_no _ _ _
    · rw [Mut.call_ub_bind] at h; simp at h
  | cut x =>
    refine chk _ _ ?_ h
    intro l1 e1
    simp only [Mut.assign_bind_run, Mut.read_bind_run]
    cases hc : nsegFwdOf fl l.nseg x with
    | ok a => simp
    | ub => simp
    | err e => exact absurd hc (cast_no _ _ _)
  | set a b c d e' f g h' i j =>
    rw [show Op.run fl (.set a b c d e' f g h' i j) = setAll fl a b c d e' f g h' i j from rfl] at h
    unfold setAll at h
    rw [Mut.read_bind_run] at h
    cases hc : sanityChecks l.throttles l.tof l.maxThrust l.isp l.mu l.cut l.nseg l.nsegFwd l.nsegBck with
    | ok a => rw [hc] at h; simp only [Mut.assign_bind_run] at h; exact absurd h (upd_no _ _ _)
    | err e => rw [hc] at h; injection h with _ h; exact h.symm
    | ub => rw [hc] at h; injection h with _ h; exact h.symm

/-- A throwing call. -/
example : (Op.run id (.tof (.fin (-1)))) Leg.default = (.err .domainError, Leg.default) := by decide +kernel

/-- **C42, negation.** On a valid leg with 0 ≤ cut ≤ 1, `set` never rejects its arguments: whatever
time of flight, thrust, specific impulse and gravitational parameter are given (negative ones
included) the call succeeds and stores them. -/
theorem C42_set_accepts_anything {fl : ℚ → ℚ} (hfl : Dbl.Rounding fl) (l : Leg Dbl) (hv : l.Valid)
    (hs : l.SegsOk) (hl : l.throttles.length < 2 ^ 32)
    (rvs rvf : RV Dbl) (ms mf tof mt isp mu : Dbl) (cut : Dbl) (hcut : inUnit cut) (t : List Dbl) :
    ∃ l', (Op.set rvs ms t rvf mf tof mt isp mu cut).run fl l = (.ok (), l') ∧
      l'.tof = tof ∧ l'.maxThrust = mt ∧ l'.isp = isp ∧ l'.mu = mu ∧ l'.throttles = t := by
  obtain ⟨q, rfl, hq0, hq1⟩ := hcut
  have hn : l.nseg < 2 ^ 32 := by have := hs.nseg; omega
  have hf : l.nsegFwd ≤ l.nseg := by have := hs.sum; omega
  have hb : l.nsegBck = usub l.nseg l.nsegFwd := by rw [usub_le hn hf]; have := hs.sum; omega
  have hc5 : l.cut.isNum := by obtain ⟨q', hq', -⟩ := hv.cut; rw [hq']; trivial
  have hnum : ∀ {x : Dbl}, nonneg x → x.isNum := fun {x} h => by cases x <;> first | trivial | exact h
  have hok := (sanity_ok (hnum hv.tof) (hnum hv.maxThrust) (hnum hv.isp) (hnum hv.mu) hc5 hn hf).2 hv
  rw [← hb] at hok
  have hn' : nsegOf t.length < 2 ^ 32 := by unfold nsegOf; omega
  obtain ⟨f, hf, -⟩ := nsegFwdOf_ok hfl hn' hq0 hq1
  show ∃ l', setAll fl rvs ms t rvf mf tof mt isp mu (.fin q) l = (.ok (), l') ∧ _
  unfold setAll updateSegs
  simp only [Mut.read_bind_run, hok, Mut.assign_bind_run, hf, Mut.assign_run]
  exact ⟨_, rfl, rfl, rfl, rfl, rfl, rfl⟩

/-- **C42, negation witness.** `set` on the default leg with a negative time of flight is accepted;
afterwards `set` rejects valid data (the old, bad, members are what it checks). -/
theorem C42_set_accepts_invalid : ∃ bad : Leg Dbl,
    (Op.set Leg.default.rvs 1 [0, 0, 0] Leg.default.rvf 1 (.fin (-1)) 1 1 1 0).run id Leg.default
      = (.ok (), bad) ∧ ¬ bad.Valid ∧
    (Op.set Leg.default.rvs 1 [0, 0, 0] Leg.default.rvf 1 1 1 1 1 0).run id bad
      = (.err .domainError, bad) := by
  refine ⟨⟨Leg.default.rvs, 1, [0, 0, 0], Leg.default.rvf, 1, .fin (-1), 1, 1, 1, 0, 1, 0, 1⟩, ?_, ?_, ?_⟩
  · decide +kernel
  · intro h; have := h.tof; simp [nonneg] at this
    norm_num at this
  · decide +kernel

/-- **C42, negation.** NaN is accepted by every scalar setter whatever the state, and stored; a NaN
cut reaches the conversion to `unsigned`, which is undefined behaviour. -/
theorem C42_nan_accepted (fl : ℚ → ℚ) (l : Leg Dbl) :
    (Op.tof .nan).run fl l = (.ok (), { l with tof := .nan }) ∧
    (Op.maxThrust .nan).run fl l = (.ok (), { l with maxThrust := .nan }) ∧
    (Op.isp .nan).run fl l = (.ok (), { l with isp := .nan }) ∧
    (Op.mu .nan).run fl l = (.ok (), { l with mu := .nan }) ∧
    ((Op.cut .nan).run fl l).1 = .ub := ⟨rfl, rfl, rfl, rfl, rfl⟩

/-- **C42, negation.** The constructor converts `nseg * cut` to `unsigned` before the cut is checked:
a cut of at most -1, or a large one, is undefined behaviour instead of the documented exception. -/
theorem C42_constructor_cut_unchecked {fl : ℚ → ℚ} (hfl : Dbl.Rounding fl) (rvs rvf : RV Dbl)
    (ms mf tof mt isp mu : Dbl) (t : List Dbl) (hl : t.length < 2 ^ 32) (h3 : 3 ≤ t.length) (q : ℚ)
    (hq : q ≤ -1 ∨ 2 ^ 32 ≤ q) :
    Leg.make fl rvs ms t rvf mf tof mt isp mu (.fin q) = .ub := by
  have hn : 1 ≤ nsegOf t.length := by unfold nsegOf; omega
  have hnq : (1 : ℚ) ≤ (nsegOf t.length : ℕ) := by exact_mod_cast hn
  unfold Leg.make nsegFwdOf Dbl.natMul Dbl.castUnsigned
  have hno : ¬ (-1 < fl ((nsegOf t.length : ℕ) * q) ∧ fl ((nsegOf t.length : ℕ) * q) < 2 ^ 32) := by
    rintro ⟨c1, c2⟩
    rcases hq with hq | hq
    · have := hfl.mono (show ((nsegOf t.length : ℕ) : ℚ) * q ≤ -1 by nlinarith)
      rw [hfl.fixNegOne] at this
      linarith
    · have := hfl.mono (show ((2 ^ 32 : ℕ) : ℚ) ≤ ((nsegOf t.length : ℕ) : ℚ) * q by
        push_cast; nlinarith)
      rw [hfl.fix _ le_rfl] at this
      push_cast at this
      linarith
  simp only [if_neg hno, Res.ub_bind]

/-- Loading what was saved restores every member, whatever the leg loaded into. The archives themselves are in `C69_sims_flanagan`. -/
theorem leg_save_load {F : Type} (l old : Leg F) : Leg.load old l.save = l := rfl

end Kep3.SF
