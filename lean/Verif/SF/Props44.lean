import Verif.SF.FlightLemmas

/-!
# C44 and C46: each throttle once, at the middle of its segment; mass bookkeeping
-/

namespace Kep3.SF

open Kep3 SFSpec

/-- The loops of the two passes run on a recorder instead of a spacecraft: the state is the list of
events so far. -/
def recorder : Machine (List Event) := ⟨fun s t => s ++ [.arc t], fun s u => s ++ [.impulse u]⟩

theorem timeline_append (t0 : ℝ) (a b : List Event) :
    timeline t0 (a ++ b) = timeline t0 a ++ timeline (endTime t0 a) b := by
  induction a generalizing t0 with
  | nil => rfl
  | cons e a ih => cases e <;> simp [timeline, endTime, ih]

theorem endTime_append (t0 : ℝ) (a b : List Event) :
    endTime t0 (a ++ b) = endTime (endTime t0 a) b := by
  induction a generalizing t0 with
  | nil => rfl
  | cons e a ih => cases e <;> simp [endTime, ih]

theorem arcs_recorder (dt t0 : ℝ) (us : List (V3 ℝ)) (s : List Event) :
    timeline t0 (arcs recorder dt us s) =
      timeline t0 s ++ us.mapIdx (fun i u => (endTime t0 s + i * dt, u)) ∧
    (us ≠ [] → endTime t0 (arcs recorder dt us s) = endTime t0 s + (us.length - 1 / 2) * dt) := by
  induction us generalizing s with
  | nil => simp [arcs]
  | cons u us ih =>
    cases us with
    | nil =>
      constructor
      · simp [arcs, recorder, timeline_append, timeline, endTime]
      · intro _
        simp [arcs, recorder, endTime_append, endTime]
        ring
    | cons v vs =>
      obtain ⟨h1, h2⟩ := ih (recorder.coast (recorder.kick s u) dt)
      have e1 : endTime t0 (recorder.coast (recorder.kick s u) dt) = endTime t0 s + dt := by
        simp [recorder, endTime_append, endTime]
      have e2 : timeline t0 (recorder.coast (recorder.kick s u) dt) = timeline t0 s ++ [(endTime t0 s, u)] := by
        simp [recorder, timeline_append, timeline]
      rw [e1, e2] at h1
      rw [e1] at h2
      constructor
      · rw [arcs, h1, List.mapIdx_cons (l := v :: vs), List.append_assoc]
        simp only [Nat.cast_zero, zero_mul, add_zero, List.singleton_append, List.append_cancel_left_eq,
          List.cons.injEq, true_and]
        apply List.ext_getElem
        · simp
        · intro i _ _
          simp only [List.getElem_mapIdx, Nat.cast_add, Nat.cast_one, Prod.mk.injEq, and_true]
          ring
      · intro _
        rw [arcs, h2 (by simp)]
        simp only [List.length_cons, Nat.cast_add, Nat.cast_one]
        ring

theorem pass_recorder (dt t0 : ℝ) (us : List (V3 ℝ)) :
    timeline t0 (pass recorder dt us []) = us.mapIdx (fun i u => (t0 + (i + 1 / 2) * dt, u)) ∧
    endTime t0 (pass recorder dt us []) = t0 + us.length * dt := by
  cases us with
  | nil => simp [pass, timeline, endTime]
  | cons u us =>
    obtain ⟨h1, h2⟩ := arcs_recorder dt t0 (u :: us) (recorder.coast [] (dt / 2))
    have e1 : endTime t0 (recorder.coast [] (dt / 2)) = t0 + dt / 2 := by simp [recorder, endTime]
    have e2 : timeline t0 (recorder.coast [] (dt / 2)) = [] := by simp [recorder, timeline]
    rw [e1, e2] at h1
    rw [e1] at h2
    constructor
    · show timeline t0 (arcs recorder dt (u :: us) (recorder.coast [] (dt / 2))) = _
      rw [h1, List.nil_append]
      apply List.ext_getElem
      · simp
      · intro i _ _
        simp only [List.getElem_mapIdx, Prod.mk.injEq, and_true]
        ring
    · show endTime t0 (arcs recorder dt (u :: us) (recorder.coast [] (dt / 2))) = _
      rw [h2 (by simp)]
      ring

/-- **C44.** For every number of segments and every split into forward and backward ones, the two
loops of `compute_mismatch_constraints`, the forward one starting at mission time 0 and the backward
one at the time of flight, fire every throttle triple exactly once, in mission order, the `i`-th at
the middle of the `i`-th of `nseg` equal segments, never index outside the throttle vector, and stop
at the same mission time. -/
theorem C44_each_throttle_once (t : List ℝ) (n nf nb : ℕ) (tof : ℝ) (hn : 0 < n)
    (ht : t.length = 3 * n) (hs : nf + nb = n) :
    ∃ f b, fwdPass recorder [] t nf (tof / n) = .ok f ∧ bckPass recorder [] t nb (tof / n) = .ok b ∧
      timeline 0 f ++ (timeline tof b).reverse =
        (triples t).mapIdx (fun i u => ((i + 1 / 2) * (tof / n), u)) ∧
      endTime 0 f = endTime tof b ∧ endTime 0 f = nf * (tof / n) := by
  refine ⟨_, _, fwdPass_eq recorder [] t n nf _ ht (by omega), bckPass_eq recorder [] t n nb _ ht (by omega), ?_⟩
  obtain ⟨f1, f2⟩ := pass_recorder (tof / n) 0 ((triples t).take nf)
  obtain ⟨b1, b2⟩ := pass_recorder (-(tof / n)) tof ((triples t).drop (n - nb)).reverse
  have hL := triples_length n t ht
  have hnR : (n : ℝ) ≠ 0 := by exact_mod_cast hn.ne'
  have hsR : (nf : ℝ) + nb = n := by exact_mod_cast hs
  have htof : tof = n * (tof / n) := by field_simp
  rw [f1, f2, b1, b2]
  refine ⟨?_, ?_, ?_⟩
  · apply List.ext_getElem
    · simp [hL]; omega
    · intro i h1 h2
      have hi : i < n := by simpa [hL] using h2
      by_cases hif : i < nf
      · rw [List.getElem_append_left (by simp [hL]; omega)]
        simp
      · rw [List.getElem_append_right (by simp [hL]; omega)]
        simp only [List.getElem_reverse, List.getElem_mapIdx, List.length_mapIdx, List.length_reverse,
          List.length_drop, List.length_take, hL, List.getElem_drop, Prod.mk.injEq]
        constructor
        · rw [show n - (n - nb) - 1 - (i - min nf n) = n - 1 - i by omega]
          have : ((n - 1 - i : ℕ) : ℝ) = n - 1 - i := by
            rw [Nat.cast_sub (by omega), Nat.cast_sub (by omega)]; simp
          rw [this]
          linear_combination htof
        · congr 1
          omega
  · simp only [List.length_take, List.length_reverse, List.length_drop, hL]
    rw [show min nf n = nf by omega, show n - (n - nb) = nb by omega]
    linear_combination (tof / n) * hsR - htof
  · simp only [List.length_take, hL]
    rw [show min nf n = nf by omega]; ring

/-- A case: three segments, one forward, two backward. -/
example : ∃ f b, fwdPass recorder [] [1, 0, 0, 0, 2, 0, 0, 0, 3] 1 (6 / (3 : ℕ)) = .ok f ∧
    bckPass recorder [] [1, 0, 0, 0, 2, 0, 0, 0, 3] 2 (6 / (3 : ℕ)) = .ok b ∧
    timeline 0 f = [(1, ⟨1, 0, 0⟩)] ∧ timeline 6 b = [(5, ⟨0, 0, 3⟩), (3, ⟨0, 2, 0⟩)] := by
  refine ⟨_, _, fwdPass_eq recorder [] _ 3 1 _ rfl (by omega), bckPass_eq recorder [] _ 3 2 _ rfl (by omega), ?_, ?_⟩
  · rw [(pass_recorder _ _ _).1]; norm_num [triples]
  · rw [(pass_recorder _ _ _).1]; norm_num [triples]

/-! ## C46 -/

/-- Masses along a sequence of burns obey Tsiolkovsky's equation: before each burn `m`, after it
`m'`, with `veff * log (m / m')` the velocity increment `c / mref * |u|`, `mref` the mass at which the
code evaluates the burn (the first one of the two in the order of the list). -/
def Rocket (c veff sgn : ℝ) : ℝ → List (V3 ℝ) → ℝ → Prop
  | m, [], m' => m' = m
  | m, u :: us, m' => ∃ x, 0 < x ∧ veff * Real.log (m / x) = sgn * (c / m * V3.norm u) ∧
      sgn * x ≤ sgn * m ∧ (x = m ↔ c = 0 ∨ u = 0) ∧ Rocket c veff sgn x us m'

theorem norm_scaled {k : ℝ} (hk : 0 ≤ k) (u : V3 ℝ) :
    Real.sqrt (k * u.x * (k * u.x) + k * u.y * (k * u.y) + k * u.z * (k * u.z)) = k * V3.norm u := by
  rw [show k * u.x * (k * u.x) + k * u.y * (k * u.y) + k * u.z * (k * u.z) = k ^ 2 * V3.dot u u by
    unfold V3.dot; ring, Real.sqrt_mul (sq_nonneg k), Real.sqrt_sq hk]
  rfl

theorem fwdKick_m {c veff : ℝ} (hc : 0 ≤ c) (hv : 0 < veff) {s : Craft} (hm : 0 < s.m) (u : V3 ℝ) :
    0 < (fwdKick c veff s u).m ∧
    veff * Real.log (s.m / (fwdKick c veff s u).m) = 1 * (c / s.m * V3.norm u) ∧
    1 * (fwdKick c veff s u).m ≤ 1 * s.m ∧ ((fwdKick c veff s u).m = s.m ↔ c = 0 ∨ u = 0) := by
  have hk : 0 ≤ c / s.m := div_nonneg hc hm.le
  have hd : (fwdKick c veff s u).m = s.m * Real.exp (-(c / s.m * V3.norm u) / veff) := by
    show s.m * Real.exp (-(Real.sqrt _) / veff) = _
    rw [norm_scaled hk]
  have hnn : 0 ≤ c / s.m * V3.norm u := mul_nonneg hk (V3.norm_nonneg u)
  rw [hd]
  refine ⟨mul_pos hm (Real.exp_pos _), ?_, ?_, ?_⟩
  · rw [div_mul_cancel_left₀ hm.ne', ← Real.exp_neg, Real.log_exp]
    field_simp
  · rw [one_mul, one_mul]
    have : Real.exp (-(c / s.m * V3.norm u) / veff) ≤ 1 := by
      rw [Real.exp_le_one_iff]
      exact div_nonpos_of_nonpos_of_nonneg (by linarith) hv.le
    nlinarith
  · constructor
    · intro h
      have h1 : Real.exp (-(c / s.m * V3.norm u) / veff) = 1 := by
        have := mul_left_cancel₀ hm.ne' (h.trans (mul_one s.m).symm)
        exact this
      rw [Real.exp_eq_one_iff, div_eq_zero_iff] at h1
      rcases h1 with h1 | h1
      · rw [neg_eq_zero, mul_eq_zero] at h1
        rcases h1 with h1 | h1
        · rw [div_eq_zero_iff] at h1
          rcases h1 with h1 | h1
          · exact .inl h1
          · exact absurd h1 hm.ne'
        · exact .inr (V3.norm_eq_zero.1 h1)
      · exact absurd h1 hv.ne'
    · rintro (h | h)
      · simp [h]
      · simp [V3.norm_eq_zero.2 h]

theorem bckKick_m {c veff : ℝ} (hc : 0 ≤ c) (hv : 0 < veff) {s : Craft} (hm : 0 < s.m) (u : V3 ℝ) :
    0 < (bckKick c veff s u).m ∧
    veff * Real.log (s.m / (bckKick c veff s u).m) = (-1) * (c / s.m * V3.norm u) ∧
    (-1) * (bckKick c veff s u).m ≤ (-1) * s.m ∧ ((bckKick c veff s u).m = s.m ↔ c = 0 ∨ u = 0) := by
  have hk : 0 ≤ c / s.m := div_nonneg hc hm.le
  have hd : (bckKick c veff s u).m = s.m * Real.exp ((c / s.m * V3.norm u) / veff) := by
    show s.m * Real.exp ((Real.sqrt _) / veff) = _
    rw [norm_scaled hk]
  have hnn : 0 ≤ c / s.m * V3.norm u := mul_nonneg hk (V3.norm_nonneg u)
  rw [hd]
  refine ⟨mul_pos hm (Real.exp_pos _), ?_, ?_, ?_⟩
  · rw [div_mul_cancel_left₀ hm.ne', ← Real.exp_neg, Real.log_exp]
    field_simp
  · have : 1 ≤ Real.exp ((c / s.m * V3.norm u) / veff) := Real.one_le_exp (div_nonneg hnn hv.le)
    nlinarith
  · constructor
    · intro h
      have h1 : Real.exp ((c / s.m * V3.norm u) / veff) = 1 :=
        mul_left_cancel₀ hm.ne' (h.trans (mul_one s.m).symm)
      rw [Real.exp_eq_one_iff, div_eq_zero_iff] at h1
      rcases h1 with h1 | h1
      · rw [mul_eq_zero] at h1
        rcases h1 with h1 | h1
        · rw [div_eq_zero_iff] at h1
          rcases h1 with h1 | h1
          · exact .inl h1
          · exact absurd h1 hm.ne'
        · exact .inr (V3.norm_eq_zero.1 h1)
      · exact absurd h1 hv.ne'
    · rintro (h | h)
      · simp [h]
      · simp [V3.norm_eq_zero.2 h]

/-- Following the masses through a pass. -/
theorem pass_rocket {M : Machine Craft} {c veff sgn : ℝ}
    (hcoast : ∀ s t, (M.coast s t).m = s.m)
    (hkick : ∀ (s : Craft) (u : V3 ℝ), 0 < s.m → 0 < (M.kick s u).m ∧
      veff * Real.log (s.m / (M.kick s u).m) = sgn * (c / s.m * V3.norm u) ∧
      sgn * (M.kick s u).m ≤ sgn * s.m ∧ ((M.kick s u).m = s.m ↔ c = 0 ∨ u = 0))
    (dt : ℝ) (us : List (V3 ℝ)) (s : Craft) (hm : 0 < s.m) :
    Rocket c veff sgn s.m us (pass M dt us s).m := by
  have harcs : ∀ (us : List (V3 ℝ)) (s : Craft), 0 < s.m → Rocket c veff sgn s.m us (arcs M dt us s).m := by
    intro us
    induction us with
    | nil => intro s _; rfl
    | cons u us ih =>
      intro s hm
      obtain ⟨k1, k2, k3, k4⟩ := hkick s u hm
      cases us with
      | nil =>
        refine ⟨_, k1, k2, k3, k4, ?_⟩
        rw [arcs, hcoast]; rfl
      | cons v vs =>
        refine ⟨_, k1, k2, k3, k4, ?_⟩
        rw [arcs]
        have := ih (M.coast (M.kick s u) dt) (by rw [hcoast]; exact k1)
        rwa [hcoast] at this
  cases us with
  | nil => rfl
  | cons u us =>
    have := harcs (u :: us) (M.coast s (dt / 2)) (by rw [hcoast]; exact hm)
    rwa [hcoast] at this

/-- **C46.** The mass at the end of the forward pass follows from the initial mass by one
Tsiolkovsky step per forward throttle, in order: each step keeps the mass positive, does not increase
it, and changes it exactly when the burn is not zero. The mass at the end of the backward pass
follows from the final mass by the backward throttles from last to first: positive, never
decreasing. The mass mismatch is the difference of the two. -/
theorem C46_rocket_equation (φ : RV ℝ → ℝ → Option (RV ℝ)) (l : Leg ℝ) (n : ℕ)
    (ht : l.throttles.length = 3 * n) (hn : l.nseg = n) (hs : l.nsegFwd + l.nsegBck = n)
    (htof : 0 ≤ l.tof) (hT : 0 ≤ l.maxThrust) (hisp : 0 < l.isp) (hms : 0 < l.ms) (hmf : 0 < l.mf) :
    ∃ diff mF mB, computeMismatch φ l = .ok (diff, mF - mB) ∧
      Rocket (l.maxThrust * (l.tof / n)) (l.isp * G0) 1 l.ms ((triples l.throttles).take l.nsegFwd) mF ∧
      Rocket (l.maxThrust * (l.tof / n)) (l.isp * G0) (-1) l.mf
        ((triples l.throttles).drop l.nsegFwd).reverse mB := by
  have hc : 0 ≤ l.maxThrust * (l.tof / n) :=
    mul_nonneg hT (div_nonneg htof (Nat.cast_nonneg n))
  have hv : 0 < l.isp * G0 := mul_pos hisp G0_pos
  unfold computeMismatch
  simp only [fwdPass_eq _ _ _ n l.nsegFwd _ ht (by omega), bckPass_eq _ _ _ n l.nsegBck _ ht (by omega),
    Res.ok_bind, hn]
  refine ⟨_, _, _, rfl, ?_, ?_⟩
  · exact pass_rocket (M := fwdMachine φ _ _) (fun s t => rfl) (fun s u hm => fwdKick_m hc hv hm u) _ _
      ⟨some l.rvs, l.ms⟩ hms
  · rw [show n - l.nsegBck = l.nsegFwd by omega]
    exact pass_rocket (M := bckMachine φ _ _) (fun s t => rfl) (fun s u hm => bckKick_m hc hv hm u) _ _
      ⟨some l.rvf, l.mf⟩ hmf

theorem Rocket.pos {c veff sgn : ℝ} {m m' : ℝ} {us : List (V3 ℝ)} (hm : 0 < m)
    (h : Rocket c veff sgn m us m') : 0 < m' := by
  induction us generalizing m with
  | nil => rw [show m' = m from h]; exact hm
  | cons u us ih => obtain ⟨x, hx, -, -, -, h⟩ := h; exact ih hx h

theorem Rocket.le {c veff sgn : ℝ} {m m' : ℝ} {us : List (V3 ℝ)}
    (h : Rocket c veff sgn m us m') : sgn * m' ≤ sgn * m := by
  induction us generalizing m with
  | nil => rw [show m' = m from h]
  | cons u us ih => obtain ⟨x, -, -, hx, -, h⟩ := h; exact (ih h).trans hx

/-- **C46, consequence.** A forward pass never gains mass, a backward one never loses mass, and both
end with positive mass. -/
theorem C46_mass_monotone {c veff m m' : ℝ} {us : List (V3 ℝ)} (hm : 0 < m) :
    (Rocket c veff 1 m us m' → 0 < m' ∧ m' ≤ m) ∧ (Rocket c veff (-1) m us m' → 0 < m' ∧ m ≤ m') := by
  refine ⟨fun h => ⟨h.pos hm, by simpa using h.le⟩, fun h => ⟨h.pos hm, ?_⟩⟩
  have := h.le
  linarith

/-- The hypotheses of C46 are met by a one-segment leg with unit data, and mass is lost there. -/
example (φ : RV ℝ → ℝ → Option (RV ℝ)) (x : RV ℝ) : ∃ diff mF mB,
    computeMismatch φ ⟨x, 1, [1, 0, 0], x, 1, 1, 1, 1, 1, 1, 1, 1, 0⟩ = .ok (diff, mF - mB) ∧
      mF < 1 ∧ mB = 1 := by
  obtain ⟨d, mF, mB, h1, h2, h3⟩ := C46_rocket_equation φ
    ⟨x, 1, [1, 0, 0], x, 1, 1, 1, 1, 1, 1, 1, 1, 0⟩ 1 rfl rfl rfl zero_le_one zero_le_one one_pos
    one_pos one_pos
  refine ⟨d, mF, mB, h1, ?_, h3⟩
  obtain ⟨m, hm, -, h4, h5, h6⟩ := h2
  have h7 : mF = m := h6
  rw [h7]
  have h8 : m ≤ 1 := by simpa using h4
  refine lt_of_le_of_ne h8 fun h9 => ?_
  rcases h5.1 h9 with h | h
  · norm_num at h
  · exact one_ne_zero (congrArg V3.x h)

end Kep3.SF
