import Verif.Planet.Convert

/-!
# C36, C71: equinoctial elements with `p ≤ 0`, and Keplerian versions of planets without a state
-/

namespace Kep3
open Real V3

/-- **C36**: equinoctial elements whose semilatus rectum is not positive are refused, whatever the other elements: by the first test of the constructor if `f ≤ 1`, and by `par2ic`
otherwise, even when an angle is not a number. -/
theorem C36_meq_semilatus (sv : Solver) (ref : ℝ) (el : Arr6) (mu : ℝ) (name : String) (ms rd sr : ℝ) (b : Bool) (hp : el 0 ≤ 0) :
    Keplerian.ofElements sv ref el mu name ms rd sr (if b then .meqR else .meq) = .err .domainError := by
  unfold Keplerian.ofElements
  by_cases h : el 0 * (1 - el 1) ≤ 0
  · rw [if_pos h]
  · rw [if_neg h]
    have p0 : el 0 < 0 := lt_of_le_of_ne hp (fun h0 => h (by rw [h0]; simp))
    have f1 : 1 < el 1 := by
      by_contra hf
      exact h (mul_nonpos_of_nonpos_of_nonneg hp (by linarith))
    set e := √(el 1 * el 1 + el 2 * el 2) with he
    have e1 : 1 < e := by
      rw [he]
      refine (Real.lt_sqrt (by norm_num)).2 ?_
      nlinarith [mul_self_nonneg (el 2)]
    have hd : 1 - e * e ≠ 0 := by nlinarith
    have hA : Keplerian.eq2parA (Meq.ofArr el) = some (el 0 / (1 - e * e)) := by
      show div? (el 0) (1 - e * e) = _
      unfold div?
      rw [if_neg hd]
    have hneg : el 0 / (1 - e * e) * (1 - e) < 0 := by
      have : el 0 / (1 - e * e) * (1 - e) = el 0 / (1 + e) := by
        have : 1 + e ≠ 0 := by linarith
        have : 1 - e ≠ 0 := by linarith
        rw [show 1 - e * e = (1 - e) * (1 + e) by ring]
        field_simp
      rw [this]
      exact div_neg_of_neg_of_pos p0 (by linarith)
    have key : ∀ q, eq2par (Meq.ofArr el) b = q → Keplerian.par2icN q (some (el 0 / (1 - e * e))) e mu = .err .domainError := by
      intro q hq
      cases q with
      | none => simp [Keplerian.par2icN, hneg]
      | some q =>
        have hq' : q.a = el 0 / (1 - e * e) ∧ q.e = e := by
          unfold eq2par at hq
          simp only [Option.bind_eq_bind, Option.bind_eq_some_iff, Option.pure_def, Option.some.injEq] at hq
          obtain ⟨_, -, _, -, a, ha, _, -, _, -, rfl⟩ := hq
          have : some a = some (el 0 / (1 - e * e)) := by rw [← ha]; exact hA
          exact ⟨Option.some.inj this, rfl⟩
        show par2ic q mu = _
        rw [C17_rejects, hq'.1, hq'.2]
        exact Or.inl hneg
    have k := key _ rfl
    cases b <;> simp only [Bool.false_eq_true, if_false, if_true, Keplerian.convert, Res.ok_bind, hA] <;>
      · rw [← he, k]; rfl

/-- A hyperbola in the reference plane with `p = -1`, `f = 2`: no angle is a number, and the second test refuses. -/
example (sv : Solver) : Keplerian.ofElements sv 0 ![-1, 2, 0, 0, 0, 0] 1 "x" 1 1 1 .meq = .err .domainError ∧
    ¬ (![-1, 2, 0, 0, 0, 0] : Arr6) 0 * (1 - (![-1, 2, 0, 0, 0, 0] : Arr6) 1) ≤ 0 := by
  refine ⟨C36_meq_semilatus sv 0 ![-1, 2, 0, 0, 0, 0] 1 "x" 1 1 1 false (by simp), by norm_num⟩

/-- **C71**: the Keplerian version of a planet that has no state at the epoch is made without a word; it has no period, and its elements of all the types of elements, mean anomaly included, are NaN. -/
theorem C71_no_state {pla : Udpla} {t : ℝ} {mu : Option ℝ} {k : Keplerian} (h : planetToKeplerian pla t mu = .ok k)
    {x : RV (Option ℝ)} (hx : Planet.eph pla t = .ok x) (hn : nums x = none) (sv : Solver) (nan : Res (RV (Option ℝ))) (info : String) :
    (∀ s ty, ty ≠ .posvel → Planet.elements (k.udpla sv nan info) s ty = .ok none) ∧
      (∀ s, Planet.period (k.udpla sv nan info) s = .ok none) ∧ (∀ s, Planet.eph (k.udpla sv nan info) s = nan) := by
  obtain ⟨m, y, name, ms, rd, sr, -, h2, -, -, -, -, rfl⟩ := ptk_inv h
  rw [hx] at h2
  obtain rfl := Res.ok.inj h2
  simp only [hn]
  refine ⟨fun s ty hty => ?_, fun s => rfl, fun s => rfl⟩
  cases ty with
  | posvel => exact absurd rfl hty
  | _ => rfl

/-- A satellite for which sgp4 gives no state. -/
example (mu : ℝ) (h : mu ≠ -1) : ∃ (pla : Udpla) (k : Keplerian) (x : RV (Option ℝ)), planetToKeplerian pla 3 none = .ok k ∧ Planet.eph pla 3 = .ok x ∧ nums x = none := by
  obtain ⟨k, hk⟩ := (C71_value (pythonUdpla (tle ⟨fun _ _ => (6, ⟨none, none, none⟩, ⟨none, none, none⟩)⟩ mu "n" "i")) 3).2 none mu "n" (-1) (-1) (-1)
    (by unfold ptkMu; show (if mu = -1 then _ else _) = _; rw [if_neg h]) ⟨_, rfl⟩ rfl rfl rfl rfl
  exact ⟨_, k, _, hk, rfl, rfl⟩

end Kep3
