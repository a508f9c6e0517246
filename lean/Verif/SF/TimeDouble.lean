import Verif.SF.Props44
import Verif.FloatErr

/-!
# C102: when the impulses of a Sims-Flanagan leg are given, in double precision
-/

namespace Kep3.SF

open Kep3 SFSpec Fl

/-- **C102**: with the segment duration rounded (`dt = m_tof / nseg`, src/leg/sims_flanagan.cpp:202; `dt / 2` and the signs are exact in binary), every throttle triple is
still fired exactly once and in mission order, within a unit of roundoff of the time of flight of the middle of its segment, and the two passes stop within a unit of roundoff of the time
of flight of each other. -/
theorem C102_impulses (t : List ℝ) (n nf nb : ℕ) {tof : ℝ} (h0 : 0 ≤ tof) (hn : 0 < n) (ht : t.length = 3 * n) (hs : nf + nb = n) :
    ∃ f b, fwdPass recorder [] t nf (rn (tof / n)) = .ok f ∧ bckPass recorder [] t nb (rn (tof / n)) = .ok b ∧
      List.Forall₂ (fun p q => |p.1 - q.1| ≤ 2⁻¹ ^ 53 * tof ∧ p.2 = q.2) (timeline 0 f ++ (timeline tof b).reverse)
        ((triples t).mapIdx (fun i u => ((i + 1 / 2) * (tof / n), u))) ∧
      |endTime 0 f - endTime tof b| ≤ 2⁻¹ ^ 53 * tof := by
  have hu' : (2⁻¹ : ℝ) ^ 53 = u := by unfold u; norm_num
  rw [hu']
  have hu := u_pos
  refine ⟨_, _, fwdPass_eq recorder [] t n nf _ ht (by omega), bckPass_eq recorder [] t n nb _ ht (by omega), ?_⟩
  obtain ⟨f1, f2⟩ := pass_recorder (rn (tof / n)) 0 ((triples t).take nf)
  obtain ⟨b1, b2⟩ := pass_recorder (-rn (tof / n)) tof ((triples t).drop (n - nb)).reverse
  have hL := triples_length n t ht
  have n0 : (0 : ℝ) < n := by exact_mod_cast hn
  have hsR : (nf : ℝ) + nb = n := by exact_mod_cast hs
  have htof : tof = n * (tof / n) := by field_simp
  have q0 : 0 ≤ tof / n := by positivity
  have e := rn_err' (tof / n)
  rw [abs_of_nonneg q0] at e
  have key : ∀ c : ℝ, 0 ≤ c → c ≤ n → |c * (rn (tof / n) - tof / n)| ≤ u * tof := by
    intro c c0 cn
    rw [abs_mul, abs_of_nonneg c0]
    have := mul_le_mul cn e (abs_nonneg _) n0.le
    rwa [show (n : ℝ) * (u * (tof / n)) = u * tof by field_simp] at this
  rw [f1, f2, b1, b2]
  generalize rn (tof / n) = dt at *
  refine ⟨?_, ?_⟩
  · rw [List.forall₂_iff_get]
    refine ⟨by simp [hL]; omega, ?_⟩
    intro i h1 h2
    have hi : i < n := by simpa [hL] using h2
    have iR : (i : ℝ) + 1 ≤ n := by exact_mod_cast hi
    have i0 : (0 : ℝ) ≤ i := Nat.cast_nonneg i
    simp only [List.get_eq_getElem]
    by_cases hif : i < nf
    · rw [List.getElem_append_left (by simp [hL]; omega)]
      simp only [List.getElem_mapIdx, List.getElem_take, and_true, zero_add]
      have := key (i + 1 / 2) (by linarith) (by linarith)
      rwa [mul_sub] at this
    · rw [List.getElem_append_right (by simp [hL]; omega)]
      simp only [List.getElem_reverse, List.getElem_mapIdx, List.length_mapIdx, List.length_reverse,
        List.length_drop, List.length_take, hL, List.getElem_drop]
      constructor
      · rw [show n - (n - nb) - 1 - (i - min nf n) = n - 1 - i by omega]
        have h3 : ((n - 1 - i : ℕ) : ℝ) = n - 1 - i := by
          rw [Nat.cast_sub (by omega), Nat.cast_sub (by omega)]; simp
        rw [h3]
        have := key (n - 1 - i + 1 / 2) (by linarith) (by linarith)
        rw [← abs_neg] at this
        convert this using 2
        linear_combination htof
      · congr 1
        omega
  · simp only [List.length_take, List.length_reverse, List.length_drop, hL]
    rw [show min nf n = nf by omega, show n - (n - nb) = nb by omega]
    have := key n n0.le le_rfl
    convert this using 2
    linear_combination dt * hsR - htof

/-- Three segments in a unit of time. -/
example : ∃ f b, fwdPass recorder [] [1, 0, 0, 0, 2, 0, 0, 0, 3] 1 (rn (1 / (3 : ℕ))) = .ok f ∧ bckPass recorder [] [1, 0, 0, 0, 2, 0, 0, 0, 3] 2 (rn (1 / (3 : ℕ))) = .ok b ∧
    |endTime 0 f - endTime 1 b| ≤ 2⁻¹ ^ 53 := by
  obtain ⟨f, b, h1, h2, -, h3⟩ := C102_impulses [1, 0, 0, 0, 2, 0, 0, 0, 3] 3 1 2 (tof := 1) zero_le_one (by norm_num) rfl rfl
  exact ⟨f, b, h1, h2, by simpa using h3⟩

end Kep3.SF
