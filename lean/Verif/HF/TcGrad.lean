import Verif.HF.Grad

/-!
# `sims_flanagan_hf::compute_tc_grad` (C62)
-/

namespace Kep3.HF

open Kep3
open Kep3.SF (usub triple)

/-- `compute_tc_grad` on the zero-initialised vector, src/leg/sims_flanagan_hf.cpp:756. -/
def tcGrad (l : Leg ℝ) : Res (List ℝ) :=
  match computeTcGrad l (List.replicate (l.nseg * l.nseg * 3) 0) with
  | (.ok _, a) => .ok a
  | (.err e, _) => .err e
  | (.ub, _) => .ub

/-- Row and column are determined by the position in the flat vector. -/
theorem flat_inj {w r r' j j' : ℕ} (hj : j < w) (hj' : j' < w) (h : r * w + j = r' * w + j') : r = r' ∧ j = j' := by
  have e1 : (r * w + j) / w = r := by rw [Nat.mul_comm, Nat.mul_add_div (by omega), Nat.div_eq_of_lt hj, Nat.add_zero]
  have e2 : (r' * w + j') / w = r' := by
    rw [Nat.mul_comm, Nat.mul_add_div (by omega), Nat.div_eq_of_lt hj', Nat.add_zero]
  have : r = r' := by rw [← e1, ← e2, h]
  subst this
  exact ⟨rfl, by omega⟩

theorem getD_set_ne {a : List ℝ} {p m : ℕ} {x : ℝ} (h : p ≠ m) : (a.set p x).getD m 0 = a.getD m 0 := by
  simp only [List.getD_eq_getElem?_getD]
  rw [List.getElem?_set_ne h]

theorem getD_set_eq {a : List ℝ} {p : ℕ} {x : ℝ} (h : p < a.length) : (a.set p x).getD p 0 = x := by
  simp only [List.getD_eq_getElem?_getD]
  rw [List.getElem?_set_self h]; rfl

/-- **C62.** For every number of segments, `compute_tc_grad` writes only inside its vector and returns the
row-major Jacobian of the throttle constraints `u_i·u_i - 1`: entry (`i`, `j`) is the derivative of the
`i`-th constraint with respect to the `j`-th throttle component, `2 t_j` when `j` belongs to segment `i` and
`0` otherwise. -/
theorem C62_tc_grad (l : Leg ℝ) (hl : l.throttles.length = 3 * l.nseg) :
    ∃ a, tcGrad l = .ok a ∧ a.length = l.nseg * (3 * l.nseg) ∧
      ∀ i < l.nseg, ∀ j < 3 * l.nseg,
        a.getD (i * (3 * l.nseg) + j) 0 = if j / 3 = i then 2 * l.throttles.getD j 0 else 0 := by
  have hpos : ∀ i j, i < l.nseg → j < 3 * l.nseg → i * (3 * l.nseg) + j < l.nseg * (3 * l.nseg) := by
    intro i j hi hj
    calc i * (3 * l.nseg) + j < i * (3 * l.nseg) + 3 * l.nseg := by omega
      _ = (i + 1) * (3 * l.nseg) := by ring
      _ ≤ l.nseg * (3 * l.nseg) := Nat.mul_le_mul_right _ hi
  obtain ⟨a, e, h1, h2⟩ := forLoop_inv (fun i => (do
      let u ← Mut.call (triple l.throttles (3 * i) (3 * i + 1) (3 * i + 2))
      putAt (i * l.nseg * 3 + 3 * i) (2 * u.x)
      putAt (i * l.nseg * 3 + 3 * i + 1) (2 * u.y)
      putAt (i * l.nseg * 3 + 3 * i + 2) (2 * u.z) : Mut (List ℝ) Unit)) l.nseg
    (List.replicate (l.nseg * l.nseg * 3) 0)
    (fun k a => a.length = l.nseg * (3 * l.nseg) ∧ ∀ i < l.nseg, ∀ j < 3 * l.nseg,
      a.getD (i * (3 * l.nseg) + j) 0 = if i < k ∧ j / 3 = i then 2 * l.throttles.getD j 0 else 0)
    (by
      intro i hi a ⟨h1, h2⟩
      have p0 := hpos i (3 * i) hi (by omega)
      have p1 := hpos i (3 * i + 1) hi (by omega)
      have p2 := hpos i (3 * i + 2) hi (by omega)
      have q0 : i * l.nseg * 3 + 3 * i = i * (3 * l.nseg) + 3 * i := by ring
      have q1 : i * l.nseg * 3 + 3 * i + 1 = i * (3 * l.nseg) + (3 * i + 1) := by ring
      have q2 : i * l.nseg * 3 + 3 * i + 2 = i * (3 * l.nseg) + (3 * i + 2) := by ring
      refine ⟨((a.set (i * (3 * l.nseg) + 3 * i) (2 * l.throttles.getD (3 * i) 0)).set
        (i * (3 * l.nseg) + (3 * i + 1)) (2 * l.throttles.getD (3 * i + 1) 0)).set
        (i * (3 * l.nseg) + (3 * i + 2)) (2 * l.throttles.getD (3 * i + 2) 0), ?_, by simp [h1], ?_⟩
      · rw [q1, q2, q0]
        unfold triple
        simp only [List.getD_eq_getElem?_getD]
        rw [List.getElem?_eq_getElem (by omega), List.getElem?_eq_getElem (by omega),
          List.getElem?_eq_getElem (by omega)]
        dsimp only
        rw [Mut.call_ok_bind, Mut.bind_run, putAt_run (by omega)]
        dsimp only
        rw [Mut.bind_run, putAt_run (by rw [List.length_set]; omega)]
        dsimp only
        rw [putAt_run (by rw [List.length_set, List.length_set]; omega)]
        rfl
      · intro r hr j hj
        by_cases hr1 : r = i
        · subst hr1
          by_cases c2 : j = 3 * r + 2
          · subst c2
            rw [getD_set_eq (by simp; omega), if_pos (by omega)]
          · rw [getD_set_ne (by intro h; exact c2 (flat_inj (by omega) hj h).2.symm)]
            by_cases c1 : j = 3 * r + 1
            · subst c1
              rw [getD_set_eq (by simp; omega), if_pos (by omega)]
            · rw [getD_set_ne (by intro h; exact c1 (flat_inj (by omega) hj h).2.symm)]
              by_cases c0 : j = 3 * r
              · subst c0
                rw [getD_set_eq (by omega), if_pos (by omega)]
              · rw [getD_set_ne (by intro h; exact c0 (flat_inj (by omega) hj h).2.symm), h2 r hr j hj,
                  if_neg (by omega), if_neg (by omega)]
        · rw [getD_set_ne (by intro h; exact hr1 (flat_inj (by omega) hj h).1.symm),
            getD_set_ne (by intro h; exact hr1 (flat_inj (by omega) hj h).1.symm),
            getD_set_ne (by intro h; exact hr1 (flat_inj (by omega) hj h).1.symm), h2 r hr j hj]
          by_cases c : r < i ∧ j / 3 = r
          · rw [if_pos c, if_pos ⟨by omega, c.2⟩]
          · rw [if_neg c, if_neg (by omega)])
    ⟨by simp; ring, by
      intro i hi j hj
      rw [if_neg (by omega), List.getD_eq_getElem?_getD]
      rw [List.getElem?_replicate]
      split <;> rfl⟩
  refine ⟨a, ?_, h1, ?_⟩
  · unfold tcGrad computeTcGrad
    rw [e]
  · intro i hi j hj
    rw [h2 i hi j hj]
    by_cases c : j / 3 = i
    · rw [if_pos ⟨hi, c⟩, if_pos c]
    · rw [if_neg (by omega), if_neg c]

/-- Two segments: the second row has the throttles of the second segment in its last three entries. -/
example (s f : St ℝ) (ta : Integ ℝ) : ∃ a, tcGrad ⟨s, [1, 2, 3, 4, 5, 6], [], f, 4, 1, 1, 1, 1 / 2, 1, 2, 1, 1, ta, ta⟩ =
    .ok a ∧ a.getD (1 * 6 + 4) 0 = 2 * 5 ∧ a.getD (1 * 6 + 2) 0 = 0 := by
  obtain ⟨a, h1, -, h3⟩ := C62_tc_grad
    ⟨s, [1, 2, 3, 4, 5, 6], [], f, 4, 1, 1, 1, 1 / 2, 1, 2, 1, 1, ta, ta⟩ rfl
  exact ⟨a, h1, h3 1 (Nat.lt_of_sub_eq_succ rfl) 4 (Nat.lt_of_sub_eq_succ rfl),
    h3 1 (Nat.lt_of_sub_eq_succ rfl) 2 (Nat.lt_of_sub_eq_succ rfl)⟩

end Kep3.HF
