import Verif.Planet.Keplerian
import Verif.Planet.Props10

/-!
# Keplerian planets: validation, read-back, ephemeris
-/

namespace Kep3
open Real V3

namespace Keplerian

/-- The planet `k` is at the state `x` at its reference epoch, and its elements of every type are those of `x`; `p` are
the ones with a true anomaly. The mean anomaly is `E - e sin E` with `E` the eccentric anomaly of the same point. -/
structure Describes (k : Keplerian) (x : RV ℝ) (p : Arr6) : Prop where
  state : k.posVel0 = some x
  par : ∀ t, k.elements t .kepF = .ok (some p)
  par_state : par2ic (Par.ofArr p) k.muCentralBody = .ok (some x)
  meq : cos (p 2 / 2) ≠ 0 → ∃ m, (∀ t, k.elements t .meq = .ok (some m)) ∧
    eq2ic (Meq.ofArr m) k.muCentralBody false = some x
  meqR : cos (p 2 / 2) ≠ 0 → sin (p 2 / 2) ≠ 0 → ∃ m, (∀ t, k.elements t .meqR = .ok (some m)) ∧
    eq2ic (Meq.ofArr m) k.muCentralBody true = some x
  mean : 0 < p 0 → cos (p 5 / 2) ≠ 0 → ∃ E m, (∀ t, k.elements t .kepM = .ok (some m)) ∧ (∀ i, i ≠ 5 → m i = p i) ∧
    m 5 = E - p 1 * sin E ∧ -π < E ∧ E < π ∧ cos (p 5) = (cos E - p 1) / (1 - p 1 * cos E) ∧
    sin (p 5) = √(1 - p 1 ^ 2) * sin E / (1 - p 1 * cos E)
  mean_hyp : p 0 < 0 → ∀ t, k.elements t .kepM = .err .logicError
  period_eq : k.period = periodFromEnergy x k.muCentralBody

end Keplerian

theorem Par.Good.e_lt {q : Par} (h : q.Good) (ha : 0 < q.a) : q.e < 1 := by
  have := pos_of_mul_pos_right h.ae ha.le
  linarith

theorem Par.Good.a_ne {q : Par} (h : q.Good) : q.a ≠ 0 := by
  rintro h0; have := h.ae; rw [h0] at this; simp at this

theorem Par.arr_ofArr (p : Arr6) : (Par.ofArr p).arr = p := by
  funext i; fin_cases i <;> rfl
theorem Par.ofArr_arr (q : Par) : Par.ofArr q.arr = q := rfl
theorem Par.arr_setF (q : Par) (M : ℝ) : ∀ i, i ≠ 5 → Par.arr { q with f := M } i = q.arr i
  | 0, _ => (show _ = q.a from rfl).trans (show q.a = _ from rfl)
  | 1, _ => (show _ = q.e from rfl).trans (show q.e = _ from rfl)
  | 2, _ => (show _ = q.i from rfl).trans (show q.i = _ from rfl)
  | 3, _ => (show _ = q.Om from rfl).trans (show q.Om = _ from rfl)
  | 4, _ => (show _ = q.om from rfl).trans (show q.om = _ from rfl)
  | 5, h => absurd rfl h
theorem Meq.ofArr_arr (m : Meq) : Meq.ofArr m.arr = m := rfl
theorem Meq.arr_ofArr (p : Arr6) : (Meq.ofArr p).arr = p := by
  funext i; fin_cases i <;> rfl

theorem energy_parState {q : Par} (hq : q.Good) {mu : ℝ} (hmu : 0 < mu) :
    energy (parState q mu) mu = -mu / (2 * q.a) ∧ (parState q mu).r ≠ 0 ∧
      cross (parState q mu).r (parState q mu).v = √(mu * q.slr) • ⟨sin q.Om * sin q.i, -cos q.Om * sin q.i, cos q.i⟩ := by
  obtain ⟨x, hx, h1, h2, h3, -⟩ := C17_orbit q hmu hq.e_nonneg hq.ae hq.den
  rw [par2ic_run hq hmu] at hx
  obtain rfl := Option.some.inj (Res.ok.inj hx)
  refine ⟨h1, ?_, ?_⟩
  · intro h0
    have hp := hq.slr_pos
    have : norm (parState q mu).r = 0 := by rw [h0]; simp [V3.norm, V3.dot]
    rw [this, show q.a * (1 - q.e ^ 2) = q.slr by unfold Par.slr; ring] at h2
    have := div_pos hp hq.den
    linarith
  · rw [h3]; congr 2; unfold Par.slr; ring_nf

/-- The advertised period agrees with the default of the planet interface. -/
theorem ellipsePeriod_eq {q : Par} (hq : q.Good) {mu : ℝ} (hmu : 0 < mu) :
    (if q.a < 0 then none else Keplerian.ellipsePeriod q.a mu) = periodFromEnergy (parState q mu) mu := by
  obtain ⟨h1, h2, -⟩ := energy_parState hq hmu
  rw [periodFromEnergy_dot _ _ h2, h1]
  have ha := hq.a_ne
  rcases lt_or_gt_of_ne ha with h | h
  · rw [if_pos h, if_pos]
    rw [show -mu / (2 * q.a) = mu / (2 * -q.a) by field_simp]
    have : 0 < -q.a := by linarith
    positivity
  · have hneg : -mu / (2 * q.a) < 0 := by
      rw [neg_div]; have : 0 < mu / (2 * q.a) := by positivity
      linarith
    rw [if_neg h.not_gt, if_neg hneg.not_gt, div?_ok hneg.ne]
    have : -mu / 2 / (-mu / (2 * q.a)) = q.a := by field_simp
    rw [this]; rfl

theorem describes_of_good {k : Keplerian} {q : Par} (hq : q.Good) (hmu : 0 < k.muCentralBody) (hk : k.kepF = some q)
    (hx : k.posVel0 = some (parState q k.muCentralBody)) (hel : k.ellipse = !decide (q.a < 0))
    (hp : k.period = periodFromEnergy (parState q k.muCentralBody) k.muCentralBody) :
    k.Describes (parState q k.muCentralBody) q.arr := by
  have hrun := par2ic_run hq hmu
  have q0 : q.arr 0 = q.a := rfl
  have q1 : q.arr 1 = q.e := rfl
  have q2 : q.arr 2 = q.i := rfl
  have q5 : q.arr 5 = q.f := rfl
  refine ⟨hx, fun t => by unfold Keplerian.elements; rw [hk]; rfl, by rw [Par.ofArr_arr]; exact hrun, ?_, ?_, ?_, ?_, hp⟩ <;>
    simp only [q0, q1, q2, q5]
  · intro hc
    obtain ⟨m, y, h1, h2, h3⟩ := C20_same_state q false hmu hq.e_nonneg hq.ae hq.den hc (fun h => nomatch h)
    rw [hrun] at h3
    obtain rfl := Option.some.inj (Res.ok.inj h3)
    exact ⟨m.arr, fun t => by unfold Keplerian.elements; simp [hk, h1], by rw [Meq.ofArr_arr]; exact h2⟩
  · intro hc hs
    obtain ⟨m, y, h1, h2, h3⟩ := C20_same_state q true hmu hq.e_nonneg hq.ae hq.den hc (fun _ => hs)
    rw [hrun] at h3
    obtain rfl := Option.some.inj (Res.ok.inj h3)
    exact ⟨m.arr, fun t => by unfold Keplerian.elements; simp [hk, h1], by rw [Meq.ofArr_arr]; exact h2⟩
  · intro ha hc
    obtain ⟨E, M, hM, hME, b1, b2, b3, b4⟩ := f2m_spec hq.e_nonneg (hq.e_lt ha) hc
    have hM5 : Par.arr { q with f := M } 5 = M := rfl
    refine ⟨E, Par.arr { q with f := M }, fun t => ?_, ?_, by rw [hM5]; exact hME, b1, b2, b3, b4⟩
    · unfold Keplerian.elements
      simp [hel, ha.not_gt, hk, hM]
    · exact Par.arr_setF q M
  · intro ha t
    unfold Keplerian.elements
    simp [hel, ha]

/-! ## C36: validation -/

/-- **C36**: which true-anomaly elements are rejected; all others give a planet. -/
theorem C36_validation_kepF (sv : Solver) (ref : ℝ) (el : Arr6) (mu : ℝ) (name : String) (ms rd sr : ℝ) :
    (Keplerian.ofElements sv ref el mu name ms rd sr .kepF = .err .domainError ↔
      el 0 * (1 - el 1) ≤ 0 ∨ (1 < el 1 ∧ 1 + el 1 * cos (el 5) < 0)) ∧
    (¬ (el 0 * (1 - el 1) ≤ 0 ∨ (1 < el 1 ∧ 1 + el 1 * cos (el 5) < 0)) →
      ∃ k, Keplerian.ofElements sv ref el mu name ms rd sr .kepF = .ok k) := by
  have hrej := C17_rejects (Par.ofArr el) mu
  unfold Keplerian.ofElements
  by_cases h : el 0 * (1 - el 1) ≤ 0
  · rw [if_pos h]; simp [h]
  · rw [if_neg h]
    simp only [Keplerian.convert, Keplerian.par2icN, Res.ok_bind]
    cases hp : par2ic (Par.ofArr el) mu with
    | ok y =>
      rw [hp] at hrej
      have hno : ¬ ((Par.ofArr el).a * (1 - (Par.ofArr el).e) < 0 ∨
        (1 < (Par.ofArr el).e ∧ 1 + (Par.ofArr el).e * cos (Par.ofArr el).f < 0)) := fun hc => nomatch hrej.2 hc
      have hno2 : ¬ (1 < el 1 ∧ 1 + el 1 * cos (el 5) < 0) := fun hc => hno (Or.inr hc)
      refine ⟨⟨fun h => (nomatch h), fun hc => ?_⟩, fun _ => ⟨_, rfl⟩⟩
      exact absurd hc (not_or.2 ⟨h, hno2⟩)
    | err e =>
      have he : e = .domainError := by
        unfold par2ic at hp
        split at hp
        · exact (Res.err.inj hp).symm
        · simp only [] at hp
          split at hp
          · exact (Res.err.inj hp).symm
          · exact nomatch hp
      subst he
      have hc := hrej.1 hp
      have hc : 1 < el 1 ∧ 1 + el 1 * cos (el 5) < 0 := hc.resolve_left (fun h2 => h h2.le)
      exact ⟨⟨fun _ => Or.inr hc, fun _ => rfl⟩, fun h2 => absurd (Or.inr hc) h2⟩
    | ub =>
      unfold par2ic at hp
      split at hp
      · exact nomatch hp
      · simp only [] at hp
        split at hp
        · exact nomatch hp
        · exact nomatch hp

/-- **C36**: which mean-anomaly elements are rejected and how; all others give a planet. -/
theorem C36_validation_kepM {sv : Solver} (hq : sv.Quick) (ref : ℝ) (el : Arr6) (mu : ℝ) (name : String)
    (ms rd sr : ℝ) :
    (el 0 * (1 - el 1) ≤ 0 → Keplerian.ofElements sv ref el mu name ms rd sr .kepM = .err .domainError) ∧
    (0 < el 0 * (1 - el 1) → el 0 < 0 → Keplerian.ofElements sv ref el mu name ms rd sr .kepM = .err .logicError) ∧
    (0 < el 0 * (1 - el 1) → 0 < el 0 → ∃ k, Keplerian.ofElements sv ref el mu name ms rd sr .kepM = .ok k) := by
  refine ⟨fun h => ?_, fun h h2 => ?_, fun h h2 => ?_⟩
  · unfold Keplerian.ofElements; rw [if_pos h]
  · unfold Keplerian.ofElements Keplerian.convert; rw [if_neg h.not_ge]; simp [h2]
  · have he : el 1 < 1 := by have := pos_of_mul_pos_right h h2.le; linarith
    unfold Keplerian.ofElements Keplerian.convert
    rw [if_neg h.not_ge]
    simp only [if_neg h2.not_gt]
    cases hm : m2f sv (el 5) (el 1) with
    | ok f =>
      simp only [Res.ok_bind, Res.pure_eq, Keplerian.par2icN]
      cases f with
      | none =>
        have : ¬ (el 0 * (1 - el 1) < 0) := h.le.not_gt
        simp [this]
      | some f =>
        simp only [Option.map_some]
        unfold par2ic
        rw [if_neg (show ¬ ({ Par.ofArr el with f := f } : Par).a * (1 - ({ Par.ofArr el with f := f } : Par).e) < 0 from
          h.le.not_gt)]
        simp only []
        rw [if_neg (show ¬ (1 < ({ Par.ofArr el with f := f } : Par).e ∧ _) from fun hc => he.not_gt hc.1)]
        exact ⟨_, rfl⟩
    | err e => exact absurd hm (C14_error_only_from_solver sv hq _ _ e).2.1
    | ub =>
      unfold m2f m2e at hm
      rw [if_neg he.not_ge] at hm
      simp only [if_neg he.not_ge] at hm
      rw [if_neg (hq _ _ _ _)] at hm
      exact nomatch hm

/-- **C36**: positions and velocities are not accepted by the constructor from elements. -/
theorem C36_validation_posvel (sv : Solver) (ref : ℝ) (el : Arr6) (mu : ℝ) (name : String) (ms rd sr : ℝ) :
    ∃ e, Keplerian.ofElements sv ref el mu name ms rd sr .posvel = .err e := by
  unfold Keplerian.ofElements
  split
  · exact ⟨_, rfl⟩
  · exact ⟨_, rfl⟩

/-! ## C36: read-back -/

/-- **C36**: a planet built from true-anomaly elements returns exactly these, and describes one state in all types. -/
theorem C36_kepF (sv : Solver) (ref : ℝ) (el : Arr6) {mu : ℝ} (hmu : 0 < mu) (name : String) (ms rd sr : ℝ)
    (he : 0 ≤ el 1) (hae : 0 < el 0 * (1 - el 1)) (hden : 0 < 1 + el 1 * cos (el 5)) :
    ∃ k x, Keplerian.ofElements sv ref el mu name ms rd sr .kepF = .ok k ∧ k.Describes x el ∧ k.refEpoch = ref ∧
      k.muCentralBody = mu := by
  have hq : (Par.ofArr el).Good := ⟨he, hae, hden⟩
  have hrun := par2ic_run hq hmu
  refine ⟨{ refEpoch := ref, name := name, muCentralBody := mu, muSelf := ms, radius := rd, safeRadius := sr, period := if (!decide (el 0 < 0)) = true then Keplerian.ellipsePeriod (el 0) mu else none, ellipse := !decide (el 0 < 0), posVel0 := some (parState (Par.ofArr el) mu), sma := some (el 0), kepF := some (Par.ofArr el) },
    parState (Par.ofArr el) mu, ?_, ?_, rfl, rfl⟩
  · unfold Keplerian.ofElements
    rw [if_neg hae.not_ge]
    simp only [Keplerian.convert, Keplerian.par2icN, Res.ok_bind, hrun]
    simp
  · have := describes_of_good (k := { refEpoch := ref, name := name, muCentralBody := mu, muSelf := ms, radius := rd, safeRadius := sr, period := if (!decide (el 0 < 0)) = true then Keplerian.ellipsePeriod (el 0) mu else none, ellipse := !decide (el 0 < 0), posVel0 := some (parState (Par.ofArr el) mu), sma := some (el 0), kepF := some (Par.ofArr el) })
      hq hmu rfl rfl rfl (by
        rw [← ellipsePeriod_eq hq hmu]
        show _ = if el 0 < 0 then none else Keplerian.ellipsePeriod (el 0) mu
        by_cases h : el 0 < 0 <;> simp [h])
    rw [Par.arr_ofArr] at this
    exact this

/-- **C36**: a planet built from mean-anomaly elements, not at the apocentre, returns these with the mean anomaly up to
full turns, and describes one state in all types. -/
theorem C36_kepM {sv : Solver} (hsv : sv.Sound) (ref : ℝ) (el : Arr6) {mu : ℝ} (hmu : 0 < mu) (name : String)
    (ms rd sr : ℝ) (ha : 0 < el 0) (he : 0 ≤ el 1) (he1 : el 1 < 1) (hM : cos (el 5) ≠ -1) :
    Keplerian.ofElements sv ref el mu name ms rd sr .kepM = .err .domainError ∨
    ∃ k x p m, Keplerian.ofElements sv ref el mu name ms rd sr .kepM = .ok k ∧ k.Describes x p ∧ k.refEpoch = ref ∧
      k.muCentralBody = mu ∧ (∀ t, k.elements t .kepM = .ok (some m)) ∧ (∀ i, i ≠ 5 → m i = el i) ∧
      ∃ j : ℤ, m 5 = el 5 + 2 * π * j := by
  have hae : 0 < el 0 * (1 - el 1) := mul_pos ha (by linarith)
  rcases C14_m2e sv hsv he he1 (el 5) with h | ⟨E, hE, a1, a2, ⟨j, hj⟩, -⟩
  · left
    unfold Keplerian.ofElements Keplerian.convert
    rw [if_neg hae.not_ge]
    simp only [if_neg ha.not_gt, m2f, if_neg he1.not_ge, h]
    rfl
  · right
    have a3 : E ≠ π := by
      rintro rfl
      apply hM
      rw [sin_pi, mul_zero, sub_zero] at hj
      have : el 5 = π + (-j : ℤ) * (2 * π) := by push_cast; linarith
      rw [this, cos_add_int_mul_two_pi, cos_pi]
    have a4 : E < π := lt_of_le_of_ne a2 a3
    obtain ⟨f, hf, f1, f2, hback, c1, c2⟩ := (C12_ellipse he he1).1 E a1 a4
    have hm : m2f sv (el 5) (el 1) = .ok (some f) := by
      unfold m2f; rw [if_neg he1.not_ge, hE]
      show Res.ok (e2f E (el 1)) = _
      rw [hf]
    set q : Par := { Par.ofArr el with f := f } with hqd
    have hden : 0 < 1 + el 1 * cos f := by
      have := neg_one_le_cos f
      have h2 : -el 1 ≤ el 1 * cos f := by
        have := mul_le_mul_of_nonneg_left this he
        linarith
      linarith
    have hq : q.Good := ⟨he, hae, hden⟩
    have hrun := par2ic_run hq hmu
    have hfm : f2m q.f q.e = some (el 5 + 2 * π * j) := by
      show f2m f (el 1) = _
      unfold f2m e2m
      rw [if_neg he1.not_ge, hback]
      simp [he1.not_ge, hj]
    refine ⟨{ refEpoch := ref, name := name, muCentralBody := mu, muSelf := ms, radius := rd, safeRadius := sr, period := Keplerian.ellipsePeriod (el 0) mu, ellipse := true, posVel0 := some (parState q mu), sma := some (el 0), kepF := some q },
      parState q mu, q.arr, Par.arr { q with f := el 5 + 2 * π * j }, ?_, ?_, rfl, rfl, ?_, ?_, j, rfl⟩
    · unfold Keplerian.ofElements Keplerian.convert
      rw [if_neg hae.not_ge]
      simp only [if_neg ha.not_gt, hm, Res.ok_bind, Res.pure_eq, Option.map_some, ← hqd, Keplerian.par2icN, hrun]
      simp [ha.not_gt]
    · refine describes_of_good hq hmu rfl rfl ?_ ?_
      · show true = !decide (el 0 < 0)
        simp [ha.not_gt]
      · rw [← ellipsePeriod_eq hq hmu]
        show _ = if el 0 < 0 then none else Keplerian.ellipsePeriod (el 0) mu
        rw [if_neg ha.not_gt]
    · intro t
      unfold Keplerian.elements
      simp [hfm]
    · intro i hi
      fin_cases i <;> first | rfl | exact absurd rfl hi

/-- **C36**: a planet built from equinoctial elements of either type, away from the circular, parabolic and equatorial
ones and with `f < 1`, is at the state of these elements, returns exactly these, and describes one state in all types. -/
theorem C36_meq_partial (sv : Solver) (ref : ℝ) (el : Arr6) {mu : ℝ} (hmu : 0 < mu) (name : String) (ms rd sr : ℝ)
    (b : Bool) (hp : 0 < el 0) (hf : el 1 < 1) (he : el 1 ^ 2 + el 2 ^ 2 ≠ 0) (he1 : el 1 ^ 2 + el 2 ^ 2 ≠ 1)
    (hi : el 3 ^ 2 + el 4 ^ 2 ≠ 0) (hden : 0 < 1 + el 1 * cos (el 5) + el 2 * sin (el 5)) :
    ∃ k x p, Keplerian.ofElements sv ref el mu name ms rd sr (if b then .meqR else .meq) = .ok k ∧ k.Describes x p ∧
      k.refEpoch = ref ∧ k.muCentralBody = mu ∧ eq2ic (Meq.ofArr el) mu b = some x ∧
      ∀ t, k.elements t (if b then .meqR else .meq) = .ok (some el) := by
  obtain ⟨q, h1, h2, i1, i2, e0⟩ := C18_eq_par_eq (Meq.ofArr el) b he he1 hi
  obtain ⟨t, hrun, -⟩ := par2eq_run q b i1 i2
  rw [h2] at hrun
  have hm := Option.some.inj hrun
  have m0 : el 0 = q.a * (1 - q.e * q.e) := congrArg Meq.p hm
  have m1 : el 1 = q.e * cos (q.om + sgnI b * q.Om) := congrArg Meq.f hm
  have m2 : el 2 = q.e * sin (q.om + sgnI b * q.Om) := congrArg Meq.g hm
  have m5 : el 5 = q.f + q.om + sgnI b * q.Om := congrArg Meq.L hm
  have hae : 0 < q.a * (1 - q.e) := by
    have : q.a * (1 - q.e) * (1 + q.e) = el 0 := by rw [m0]; ring
    rw [← this] at hp
    exact pos_of_mul_pos_left hp (by linarith)
  have hden' : 0 < 1 + q.e * cos q.f := by
    have : 1 + el 1 * cos (el 5) + el 2 * sin (el 5) = 1 + q.e * cos q.f := by
      rw [m1, m2, m5, show q.f + q.om + sgnI b * q.Om = q.f + (q.om + sgnI b * q.Om) by ring]
      generalize q.om + sgnI b * q.Om = θ
      rw [cos_add, sin_add]
      linear_combination (q.e * cos q.f) * sin_sq_add_cos_sq θ
    rw [← this]; exact hden
  have hq : q.Good := ⟨e0.le, hae, hden'⟩
  have hpar := par2ic_run hq hmu
  have ci : cos (q.i / 2) ≠ 0 := (cos_pos_of_mem_Ioo ⟨by linarith [Real.pi_pos], by linarith⟩).ne'
  have si : sin (q.i / 2) ≠ 0 := (sin_pos_of_pos_of_lt_pi (by linarith) (by linarith)).ne'
  obtain ⟨m, y, h3, h4, h5⟩ := C20_same_state q b hmu e0.le hae hden' ci fun _ => si
  rw [hpar] at h5
  obtain rfl := Option.some.inj (Res.ok.inj h5)
  rw [h2] at h3
  obtain rfl := Option.some.inj h3
  have hA : Keplerian.eq2parA (Meq.ofArr el) = some q.a := by
    unfold eq2par at h1
    unfold Keplerian.eq2parA
    simp only [Option.bind_eq_bind, Option.bind_eq_some_iff, Option.pure_def] at h1
    obtain ⟨_, -, _, -, a, ha, _, -, _, -, hq'⟩ := h1
    rw [ha, ← Option.some.inj hq']
  have hchk : 0 < el 0 * (1 - el 1) := mul_pos hp (by linarith)
  have hmarr : (Meq.ofArr el).arr = el := Meq.arr_ofArr el
  refine ⟨{ refEpoch := ref, name := name, muCentralBody := mu, muSelf := ms, radius := rd, safeRadius := sr, period := if (!decide (q.a < 0)) = true then Keplerian.ellipsePeriod q.a mu else none, ellipse := !decide (q.a < 0), posVel0 := some (parState q mu), sma := some q.a, kepF := some q },
    parState q mu, q.arr, ?_, ?_, rfl, rfl, h4, ?_⟩
  · unfold Keplerian.ofElements
    rw [if_neg hchk.not_ge]
    cases b
    · simp only [Bool.false_eq_true, if_false, Keplerian.convert, Keplerian.par2icN, Res.ok_bind, h1, hA, hpar]
      simp
    · simp only [if_true, Keplerian.convert, Keplerian.par2icN, Res.ok_bind, h1, hA, hpar]
      simp
  · refine describes_of_good hq hmu rfl rfl rfl ?_
    rw [← ellipsePeriod_eq hq hmu]
    show (if (!decide (q.a < 0)) = true then Keplerian.ellipsePeriod q.a mu else none) = _
    by_cases h : q.a < 0 <;> simp [h]
  · intro t
    cases b
    · unfold Keplerian.elements
      simp [h2, hmarr]
    · unfold Keplerian.elements
      simp [h2, hmarr]

/-- **C36**: a planet built from a state (not in the reference plane, neither circular nor parabolic) is at this state
and describes it in all types. -/
theorem C36_state (ref : ℝ) (x : RV ℝ) {mu : ℝ} (hmu : 0 < mu) (name : String) (ms rd sr : ℝ)
    (hn : (cross x.r x.v).x ≠ 0 ∨ (cross x.r x.v).y ≠ 0) (he : eccVec x mu ≠ 0) (hE : energy x mu ≠ 0) :
    ∃ p, (Keplerian.ofState ref x mu name ms rd sr).Describes x p ∧ 0 < p 2 ∧ p 2 < π := by
  obtain ⟨q, hq, hback, i1, i2, -⟩ := C16_round_trip x hmu hn he hE
  obtain ⟨q', hq', qe, qa, -, -, qc, -, -⟩ := ic2par_spec x hmu hn he hE
  rw [hq] at hq'
  obtain rfl := Option.some.inj hq'
  have hh : angMom x ≠ 0 := by
    intro h0
    change (angMom x).x ≠ 0 ∨ (angMom x).y ≠ 0 at hn
    rw [h0] at hn; simp at hn
  have hr := r_ne_of_h hh
  have hR := norm_pos hr
  have hH : 0 < dot (angMom x) (angMom x) := by rw [← norm_mul_self]; have := norm_pos hh; positivity
  have e0 : 0 < q.e := by rw [qe]; exact norm_pos he
  have hslr : 0 < q.a * (1 - q.e * q.e) := by rw [qa]; positivity
  have hae : 0 < q.a * (1 - q.e) := by
    have : q.a * (1 - q.e * q.e) = q.a * (1 - q.e) * (1 + q.e) := by ring
    rw [this] at hslr
    exact pos_of_mul_pos_left hslr (by linarith)
  have hper := eccVec_r (mu := mu) hr
  have hden : norm x.r * (1 + q.e * cos q.f) = dot (angMom x) (angMom x) / mu := by
    rw [qc, dot_smul, V3.dot_comm x.r, hper]; field_simp; ring
  have hden0 : 0 < 1 + q.e * cos q.f := by
    have h3 : 0 < norm x.r * (1 + q.e * cos q.f) := by rw [hden]; positivity
    exact pos_of_mul_pos_right h3 hR.le
  have hg : q.Good := ⟨e0.le, hae, hden0⟩
  have hxs : x = parState q mu := by
    rw [par2ic_run hg hmu] at hback
    exact (Option.some.inj (Res.ok.inj hback)).symm
  obtain ⟨hen, -, hcross⟩ := energy_parState hg hmu
  rw [← hxs] at hen hcross
  have hi : sin q.i ≠ 0 := by
    intro h0
    have c1 := congrArg V3.x hcross
    have c2 := congrArg V3.y hcross
    simp only [smul_x, smul_y, h0, mul_zero] at c1 c2
    rcases hn with h | h
    · exact h c1
    · exact h c2
  have i1' : 0 < q.i := lt_of_le_of_ne i1 (fun h => hi (by rw [← h, sin_zero]))
  have i2' : q.i < π := lt_of_le_of_ne i2 (fun h => hi (by rw [h, sin_pi]))
  refine ⟨q.arr, ?_, i1', i2'⟩
  have hRR : √(x.r.x * x.r.x + x.r.y * x.r.y + x.r.z * x.r.z) = norm x.r := rfl
  have hee : (x.v.x * x.v.x + x.v.y * x.v.y + x.v.z * x.v.z) / 2 - mu / norm x.r = energy x mu := rfl
  have hsign : 0 < energy x mu ↔ q.a < 0 := by
    rw [hen]
    constructor
    · intro h
      by_contra hc
      have : -mu / (2 * q.a) ≤ 0 := div_nonpos_of_nonpos_of_nonneg (by linarith) (by linarith)
      linarith
    · intro h
      exact div_pos_of_neg_of_neg (by linarith) (by linarith)
  have key := describes_of_good (k := Keplerian.ofState ref x mu name ms rd sr) hg hmu hq ?_ ?_ ?_
  · rw [show (Keplerian.ofState ref x mu name ms rd sr).muCentralBody = mu from rfl, ← hxs] at key
    exact key
  · show some x = some (parState q mu); rw [← hxs]
  · unfold Keplerian.ofState
    simp only [hRR, if_neg hR.ne', hee, hsign]
  · show (Keplerian.ofState ref x mu name ms rd sr).period = periodFromEnergy (parState q mu) mu
    rw [← hxs, periodFromEnergy_dot x mu hr]
    unfold Keplerian.ofState
    simp only [hRR, if_neg hR.ne', hee]
    by_cases h : 0 < energy x mu
    · simp [h]
    · simp only [h, decide_false, Bool.not_false, ne_eq, hR.ne', not_false_eq_true, and_self, if_true, if_false]
      rfl

/-- **C36 fails**: the test on the first two elements, meant for the semi-major axis and the eccentricity, is applied to
`p` and `f` when the elements are equinoctial. So every hyperbola with `f >= 1` is refused, though the state is
perfectly defined. -/
theorem C36_meq_hyperbola_refused (sv : Solver) (ref : ℝ) (el : Arr6) {mu : ℝ} (hmu : 0 < mu) (name : String)
    (ms rd sr : ℝ) (b : Bool) (hp : 0 < el 0) (hf : 1 ≤ el 1)
    (hden : 0 < 1 + el 1 * cos (el 5) + el 2 * sin (el 5)) :
    (∃ x, eq2ic (Meq.ofArr el) mu b = some x) ∧
      Keplerian.ofElements sv ref el mu name ms rd sr (if b then .meqR else .meq) = .err .domainError := by
  constructor
  · unfold eq2ic
    have h1 : 1 + (Meq.ofArr el).g * sin (Meq.ofArr el).L + (Meq.ofArr el).f * cos (Meq.ofArr el).L ≠ 0 := by
      show 1 + el 2 * sin (el 5) + el 1 * cos (el 5) ≠ 0
      linarith
    have h2 : (0 : ℝ) < |(Meq.ofArr el).p| := abs_pos.2 hp.ne'
    simp only [div?_ok h1, div?_ok h2.ne', Option.bind_eq_bind, Option.bind_some,
      sqrt?_ok (show 0 ≤ mu / |(Meq.ofArr el).p| by positivity)]
    exact ⟨_, rfl⟩
  · unfold Keplerian.ofElements
    rw [if_pos]
    exact mul_nonpos_of_nonneg_of_nonpos hp.le (by linarith)

/-- **C36 fails**: circular orbits, and orbits in the reference plane, given by equinoctial elements are accepted, but the
planet has no state, though the state is perfectly defined (these elements were devised for these orbits). -/
theorem C36_meq_degenerate (sv : Solver) (ref : ℝ) (el : Arr6) {mu : ℝ} (hmu : 0 < mu) (name : String)
    (ms rd sr : ℝ) (b : Bool) (hp : 0 < el 0) (hf : el 1 < 1) (h : (el 1 = 0 ∧ el 2 = 0) ∨ (el 3 = 0 ∧ el 4 = 0))
    (hden : 0 < 1 + el 1 * cos (el 5) + el 2 * sin (el 5)) :
    (∃ x, eq2ic (Meq.ofArr el) mu b = some x) ∧
      ∃ k, Keplerian.ofElements sv ref el mu name ms rd sr (if b then .meqR else .meq) = .ok k ∧ k.posVel0 = none ∧
        k.kepF = none := by
  constructor
  · unfold eq2ic
    have h1 : 1 + (Meq.ofArr el).g * sin (Meq.ofArr el).L + (Meq.ofArr el).f * cos (Meq.ofArr el).L ≠ 0 := by
      show 1 + el 2 * sin (el 5) + el 1 * cos (el 5) ≠ 0
      linarith
    have h2 : (0 : ℝ) < |(Meq.ofArr el).p| := abs_pos.2 hp.ne'
    simp only [div?_ok h1, div?_ok h2.ne', Option.bind_eq_bind, Option.bind_some,
      sqrt?_ok (show 0 ≤ mu / |(Meq.ofArr el).p| by positivity)]
    exact ⟨_, rfl⟩
  · have hchk : 0 < el 0 * (1 - el 1) := mul_pos hp (by linarith)
    have hno : ∀ b, eq2par (Meq.ofArr el) b = none := by
      intro b
      unfold eq2par
      rcases h with ⟨h1, h2⟩ | ⟨h1, h2⟩
      · have : √((Meq.ofArr el).f * (Meq.ofArr el).f + (Meq.ofArr el).g * (Meq.ofArr el).g) = 0 := by
          show √(el 1 * el 1 + el 2 * el 2) = 0
          rw [h1, h2]; simp
        simp only [this]
        have hd : div? (Meq.ofArr el).g 0 = none := by unfold div?; rw [if_pos rfl]
        rw [hd]; rfl
      · have : √((Meq.ofArr el).h * (Meq.ofArr el).h + (Meq.ofArr el).k * (Meq.ofArr el).k) = 0 := by
          show √(el 3 * el 3 + el 4 * el 4) = 0
          rw [h1, h2]; simp
        simp only [this]
        have hd : div? (Meq.ofArr el).k 0 = none := by unfold div?; rw [if_pos rfl]
        rw [hd]
        simp
    have hA : (Keplerian.eq2parA (Meq.ofArr el)).any
        (fun a => decide (a * (1 - √(el 1 * el 1 + el 2 * el 2)) < 0)) = false := by
      unfold Keplerian.eq2parA
      show (div? (el 0) (1 - √(el 1 * el 1 + el 2 * el 2) * √(el 1 * el 1 + el 2 * el 2))).any _ = false
      have he := Real.sqrt_nonneg (el 1 * el 1 + el 2 * el 2)
      generalize √(el 1 * el 1 + el 2 * el 2) = e at *
      by_cases h0 : 1 - e * e = 0
      · unfold div?; rw [if_pos h0]; rfl
      · rw [div?_ok h0]
        have h1 : 1 - e ≠ 0 := fun h => h0 (by linear_combination (1 + e) * h)
        have : el 0 / (1 - e * e) * (1 - e) = el 0 / (1 + e) := by
          rw [show 1 - e * e = (1 - e) * (1 + e) by ring]; field_simp
        simp only [Option.any_some, this, decide_eq_false_iff_not, not_lt]
        positivity
    unfold Keplerian.ofElements
    rw [if_neg hchk.not_ge]
    cases b
    · simp only [Bool.false_eq_true, if_false, Keplerian.convert, Keplerian.par2icN, Res.ok_bind, hno, hA]
      exact ⟨_, rfl, rfl, rfl⟩
    · simp only [if_true, Keplerian.convert, Keplerian.par2icN, Res.ok_bind, hno, hA, Bool.false_eq_true, if_false]
      exact ⟨_, rfl, rfl, rfl⟩

/-- **C36 fails**: a negative eccentricity is accepted. -/
theorem C36_negative_eccentricity (sv : Solver) (ref : ℝ) (el : Arr6) (mu : ℝ) (name : String) (ms rd sr : ℝ)
    (ha : 0 < el 0) (he : el 1 < 0) : ∃ k, Keplerian.ofElements sv ref el mu name ms rd sr .kepF = .ok k := by
  refine (C36_validation_kepF sv ref el mu name ms rd sr).2 ?_
  rintro (h | ⟨h, -⟩)
  · have : 0 < el 0 * (1 - el 1) := mul_pos ha (by linarith)
    linarith
  · linarith

/-- **C36**: the period is no number exactly on hyperbolas. -/
theorem C36_period {k : Keplerian} {x : RV ℝ} {p : Arr6} (hk : k.Describes x p) (hmu : 0 < k.muCentralBody)
    (hr : x.r ≠ 0) (hE : energy x k.muCentralBody ≠ 0) : (∀ t, Planet.period (k.udpla sv nan info) t = .ok k.period) ∧
    (k.period = none ↔ 0 < energy x k.muCentralBody) ∧ (energy x k.muCentralBody < 0 →
      k.period = some (2 * π * √((-k.muCentralBody / (2 * energy x k.muCentralBody)) ^ 3 / k.muCentralBody))) := by
  obtain ⟨h1, h2⟩ := C10_kepler x hmu hr
  change (energy x k.muCentralBody < 0 → _) at h1
  change (0 ≤ energy x k.muCentralBody → _) at h2
  refine ⟨fun t => rfl, ?_, ?_⟩
  · rw [hk.period_eq]
    rcases lt_or_gt_of_ne hE with h | h
    · obtain ⟨a, T, -, -, h3, -⟩ := h1 h
      rw [h3]; simp [h.le]
    · rw [h2 h.le]; simp [h]
  · intro h
    obtain ⟨a, T, e1, -, h3, h4, -⟩ := h1 h
    rw [hk.period_eq, h3, h4, e1]; rfl

/-! ## C37 -/

/-- **C37**: the ephemeris at an epoch is the point reached, after the time elapsed since the reference epoch, by any
solution of the two-body problem through the reference state. -/
theorem C37_flow {sv : Solver} (hsv : sv.Sound) {k : Keplerian} {nan : Res (RV (Option ℝ))} {info : String}
    (hmu : 0 < k.muCentralBody) {γ : ℝ → RV ℝ} (hγ : TwoBody k.muCentralBody γ) (hx : k.posVel0 = some (γ 0))
    (hh : cross (γ 0).r (γ 0).v ≠ 0) (hE : energy (γ 0) k.muCentralBody ≠ 0) (t : ℝ)
    (hr : HypRange (γ 0) k.muCentralBody ((t - k.refEpoch) * 86400)) :
    Planet.eph (k.udpla sv nan info) t = .ok (spread (some (γ ((t - k.refEpoch) * 86400)))) ∨
      (Planet.eph (k.udpla sv nan info) t = .err .domainError ∧ ¬ sv.Quick) := by
  have hrun := propagateLagrangian_run hmu hh sv hsv ((t - k.refEpoch) * 86400) hE hr
  have hfl := twoBody_unique hmu hγ hh ((t - k.refEpoch) * 86400)
  show Keplerian.eph sv nan k t = _ ∨ (Keplerian.eph sv nan k t = _ ∧ _)
  unfold Keplerian.eph
  rw [hx]
  have hd : DAY2SEC = 86400 := rfl
  rw [hd]
  rcases hrun with ⟨h1, h2⟩ | h1
  · right
    exact ⟨by simp only [h1]; rfl, h2⟩
  · left
    simp only [h1, hfl]; rfl

/-- **C37**: there is such a solution, for every reference state with an angular momentum. -/
theorem C37_flow_exists {mu : ℝ} (hmu : 0 < mu) {x : RV ℝ} (hh : cross x.r x.v ≠ 0) :
    ∃ γ : ℝ → RV ℝ, TwoBody mu γ ∧ γ 0 = x :=
  ⟨kepFlow x mu, kepFlow_twoBody hmu hh, kepFlow_zero hmu hh⟩

/-- **C37**: at the reference epoch the ephemeris is the reference state. -/
theorem C37_reference {sv : Solver} (hsv : sv.Sound) (hq : sv.Quick) {k : Keplerian} {nan : Res (RV (Option ℝ))}
    {info : String} (hmu : 0 < k.muCentralBody) {x : RV ℝ} (hx : k.posVel0 = some x) (hh : cross x.r x.v ≠ 0)
    (hE : energy x k.muCentralBody ≠ 0) : Planet.eph (k.udpla sv nan info) k.refEpoch = .ok (spread (some x)) := by
  obtain ⟨γ, h1, h2⟩ := C37_flow_exists hmu hh
  subst h2
  rcases C37_flow hsv (nan := nan) (info := info) hmu h1 hx hh hE k.refEpoch (fun _ => by norm_num) with h | ⟨-, h⟩
  · rw [h]; simp
  · exact absurd hq h

/-- **C37**: on an ellipse the ephemeris exists at all epochs and repeats after the period the planet advertises. -/
theorem C37_periodic {sv : Solver} (hsv : sv.Sound) (hq : sv.Quick) {k : Keplerian} {nan : Res (RV (Option ℝ))}
    {info : String} {x : RV ℝ} {p : Arr6} (hk : k.Describes x p) (hmu : 0 < k.muCentralBody) (hh : cross x.r x.v ≠ 0)
    (hE : energy x k.muCentralBody < 0) : ∃ T, 0 < T ∧ ∀ t, Planet.period (k.udpla sv nan info) t = .ok (some T) ∧
      Planet.eph (k.udpla sv nan info) (t + T / 86400) = Planet.eph (k.udpla sv nan info) t ∧
      ∃ y, Planet.eph (k.udpla sv nan info) t = .ok (spread (some y)) ∧
        energy y k.muCentralBody = energy x k.muCentralBody ∧ cross y.r y.v = cross x.r x.v := by
  obtain ⟨γ, h1, h2⟩ := C37_flow_exists hmu hh
  subst h2
  have heph : ∀ t, Planet.eph (k.udpla sv nan info) t = .ok (spread (some (γ ((t - k.refEpoch) * 86400)))) := by
    intro t
    rcases C37_flow hsv (nan := nan) (info := info) hmu h1 hk.state hh hE.ne t (fun h => absurd h hE.not_gt) with h | ⟨-, h⟩
    · exact h
    · exact absurd hq h
  obtain ⟨T, t0, t1, t2, -⟩ := C10_returns hmu h1 hh hE
  refine ⟨T, t0, fun t => ⟨?_, ?_, ?_⟩⟩
  · show Res.ok k.period = _
    rw [hk.period_eq, t1 0]
  · rw [heph, heph, show (t + T / 86400 - k.refEpoch) * 86400 = (t - k.refEpoch) * 86400 + T by field_simp; ring, t2]
  · refine ⟨_, heph t, ?_, ?_⟩
    · rw [twoBody_unique hmu h1 hh]; exact energy_stateU hmu hh _
    · rw [twoBody_unique hmu h1 hh]; exact angMom_stateU hmu hh _

/-! ## Concrete cases -/

/-- An inclined ellipse given by elements of each type. -/
example (sv : Solver) : ∃ k x, Keplerian.ofElements sv 0 ![2, 1 / 2, 1, 1, 1, 1] 1 "a" (-1) (-1) (-1) .kepF = .ok k ∧
    k.Describes x ![2, 1 / 2, 1, 1, 1, 1] := by
  obtain ⟨k, x, h1, h2, -⟩ := C36_kepF sv 0 ![2, 1 / 2, 1, 1, 1, 1] one_pos "a" (-1) (-1) (-1) (by norm_num)
    (by norm_num) (by have := neg_one_le_cos 1; show 0 < 1 + 1 / 2 * cos 1; linarith)
  exact ⟨k, x, h1, h2⟩

/-- A hyperbola through its pericentre, on the axis of the longitudes: refused. -/
example (sv : Solver) : Keplerian.ofElements sv 0 ![1, 2, 0, 1, 0, 0] 1 "a" (-1) (-1) (-1) .meq = .err .domainError :=
  (C36_meq_hyperbola_refused sv 0 ![1, 2, 0, 1, 0, 0] one_pos "a" (-1) (-1) (-1) false (by norm_num) (by norm_num)
    (by show 0 < 1 + 2 * cos 0 + 0 * sin 0; norm_num)).2

/-- A circular orbit: accepted, no state. -/
example (sv : Solver) : ∃ k, Keplerian.ofElements sv 0 ![1, 0, 0, 1, 0, 0] 1 "a" (-1) (-1) (-1) .meq = .ok k ∧
    k.posVel0 = none := by
  obtain ⟨-, k, h1, h2, -⟩ := C36_meq_degenerate sv 0 ![1, 0, 0, 1, 0, 0] one_pos "a" (-1) (-1) (-1) false (by norm_num)
    (by norm_num) (Or.inl ⟨rfl, rfl⟩) (by show 0 < 1 + 0 * cos 0 + 0 * sin 0; norm_num)
  exact ⟨k, h1, h2⟩

/-- An inclined ellipse given by its state: the ephemeris repeats. -/
example : ∃ T, 0 < T ∧ ∀ t, Planet.period ((Keplerian.ofState 0 ⟨⟨2, 0, 0⟩, ⟨0, 1 / 2, 3 / 4⟩⟩ 1 "a" (-1) (-1) (-1)).udpla
    idealSolver .ub "") t = .ok (some T) := by
  have hn : norm (⟨2, 0, 0⟩ : V3 ℝ) = 2 := by
    unfold V3.norm V3.dot; rw [show (2 * 2 + 0 * 0 + 0 * 0 : ℝ) = 2 ^ 2 by norm_num]
    exact sqrt_sq (by norm_num)
  have hE : energy ⟨⟨2, 0, 0⟩, ⟨0, 1 / 2, 3 / 4⟩⟩ 1 = -3 / 32 := by
    unfold energy; rw [hn]; simp [V3.dot]; norm_num
  have hne : cross (⟨2, 0, 0⟩ : V3 ℝ) ⟨0, 1 / 2, 3 / 4⟩ ≠ 0 := fun h => by
    have := congrArg V3.y h
    simp at this
  obtain ⟨p, hp, -⟩ := C36_state 0 ⟨⟨2, 0, 0⟩, ⟨0, 1 / 2, 3 / 4⟩⟩ one_pos "a" (-1) (-1) (-1) (Or.inr (by simp))
    (fun h => by
      have := congrArg V3.x h
      simp [eccVec, hn] at this
      norm_num at this) (by rw [hE]; norm_num)
  obtain ⟨T, h0, h1⟩ := C37_periodic idealSolver_sound idealSolver_quick (nan := .ub) (info := "") hp one_pos hne
    (by show energy _ 1 < 0; rw [hE]; norm_num)
  exact ⟨T, h0, fun t => (h1 t).1⟩

end Kep3
