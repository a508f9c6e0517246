import Verif.SF.FlightLemmas
import Mathlib.Analysis.Calculus.Deriv.Pow
import Mathlib.Analysis.Calculus.Deriv.Mul
import Mathlib.Analysis.Calculus.Deriv.Add

/-!
# C45: throttle constraints and their gradient
-/

namespace Kep3.SF

open Kep3 SFSpec

theorem throttleConstraints_eq (l : Leg ℝ) (ht : l.throttles.length = 3 * l.nseg) :
    throttleConstraints l = .ok ((triples l.throttles).map fun u => V3.dot u u - 1) := by
  have key : ∀ (us : List (V3 ℝ)) (k : ℕ) (get : ℕ → Res (V3 ℝ)),
      (∀ i u, us[i]? = some u → get (k + i) = .ok u) →
      (List.range' k us.length).mapM (fun i => do
        let u ← get i
        Res.ok (u.x * u.x + u.y * u.y + u.z * u.z - 1)) = .ok (us.map fun u => V3.dot u u - 1) := by
    intro us
    induction us with
    | nil => intros; rfl
    | cons u us ih =>
      intro k get hget
      have h0 : get k = .ok u := by simpa using hget 0 u rfl
      rw [List.length_cons, List.range'_succ, List.mapM_cons, h0, ih (k + 1) get (by
        intro i v hv
        have := hget (i + 1) v (by simpa using hv)
        rwa [← Nat.add_assoc, Nat.add_right_comm] at this)]
      rfl
  unfold throttleConstraints
  have hL := triples_length l.nseg l.throttles ht
  have := key (triples l.throttles) 0 (fun i => triple l.throttles (3 * i) (3 * i + 1) (3 * i + 2)) (by
    intro i u hu
    rw [Nat.zero_add]
    exact triple_eq l.nseg _ ht i u hu)
  rw [hL, ← List.range_eq_range'] at this
  exact this

/-- **C45, constraints.** `compute_throttle_constraints` returns one number per segment, and the
`i`-th is non-positive exactly when the `i`-th throttle has norm at most one. -/
theorem C45_throttle_constraints (l : Leg ℝ) (ht : l.throttles.length = 3 * l.nseg) :
    ∃ cs, throttleConstraints l = .ok cs ∧ cs.length = l.nseg ∧
      ∀ (i : ℕ) (u : V3 ℝ), (triples l.throttles)[i]? = some u →
        ∃ x, cs[i]? = some x ∧ (x ≤ 0 ↔ V3.norm u ≤ 1) ∧ (x = 0 ↔ V3.norm u = 1) := by
  refine ⟨_, throttleConstraints_eq l ht, ?_, ?_⟩
  · rw [List.length_map, triples_length l.nseg _ ht]
  · intro i u hu
    refine ⟨_, by rw [List.getElem?_map, hu]; rfl, ?_, ?_⟩
    · show V3.dot u u - 1 ≤ 0 ↔ _
      rw [← V3.norm_sq, sub_nonpos]
      constructor
      · intro h
        nlinarith [V3.norm_nonneg u]
      · intro h
        nlinarith [V3.norm_nonneg u]
    · show V3.dot u u - 1 = 0 ↔ _
      rw [← V3.norm_sq, sub_eq_zero]
      constructor
      · intro h
        have := V3.norm_nonneg u
        nlinarith
      · intro h; rw [h]; norm_num

/-! ### The gradient array -/

/-- Reading the components back from the list of triples. -/
theorem getElem_triples {F : Type} (n : ℕ) : ∀ (t : List F), t.length = 3 * n → ∀ i (u : V3 F),
    (triples t)[i]? = some u →
    t[3 * i]? = some u.x ∧ t[3 * i + 1]? = some u.y ∧ t[3 * i + 2]? = some u.z := by
  intro t ht i u hu
  have := triple_eq n t ht i u hu
  unfold triple at this
  split at this
  · rename_i x y z h1 h2 h3
    injection this with this
    subst this
    exact ⟨h1, h2, h3⟩
  · cases this

/-- The entry of `tc_grad` at row `i`, column `j` of an `n × 3n` array, as a function: twice the
throttle component on the diagonal blocks, zero elsewhere. -/
noncomputable def tcEntry (us : List ℝ) (i j : ℕ) : ℝ :=
  if j / 3 = i then 2 * us.getD j 0 else 0

theorem fold_set (t : List ℝ) (n : ℕ) (ht : t.length = 3 * n) :
    ∀ k, k ≤ n → ∃ g, (List.range k).foldlM (fun g i => do
        let u ← triple t (3 * i) (3 * i + 1) (3 * i + 2)
        Res.ok (((g.set (i * n * 3 + 3 * i) (2 * u.x)).set (i * n * 3 + 3 * i + 1) (2 * u.y)).set
          (i * n * 3 + 3 * i + 2) (2 * u.z))) (List.replicate (n * n * 3) (0 : ℝ)) = .ok g ∧
      g.length = n * n * 3 ∧
      ∀ i j, i < n → j < 3 * n → g[i * (3 * n) + j]? = some (if i < k then tcEntry t i j else 0) := by
  intro k
  induction k with
  | zero =>
    intro _
    refine ⟨_, rfl, by simp, ?_⟩
    intro i j hi hj
    rw [List.getElem?_replicate, if_pos (by nlinarith)]
    simp
  | succ k ih =>
    intro hk
    obtain ⟨g, h1, h2, h3⟩ := ih (by omega)
    have hkl : k < (triples t).length := by rw [triples_length n t ht]; omega
    have hu : (triples t)[k]? = some (triples t)[k] := List.getElem?_eq_getElem hkl
    set u := (triples t)[k] with hudef
    obtain ⟨c1, c2, c3⟩ := getElem_triples n t ht k u hu
    rw [List.range_succ, List.foldlM_append, h1]
    simp only [Res.ok_bind, List.foldlM_cons, List.foldlM_nil, triple_eq n t ht k u hu]
    refine ⟨_, rfl, by simp [h2], ?_⟩
    intro i j hi hj
    have hlen : k * n * 3 + 3 * k + 2 < n * n * 3 := by nlinarith
    have hbase : k * n * 3 = k * (3 * n) := by ring
    simp only [List.getElem?_set, List.length_set, h2]
    rw [h3 i j hi hj]
    by_cases hik : i = k
    · subst hik
      rw [if_neg (lt_irrefl i), if_pos (Nat.lt_succ_self i)]
      unfold tcEntry
      by_cases j0 : j = 3 * i
      · subst j0
        rw [if_neg (by omega), if_neg (by omega), if_pos (by omega), if_pos (by omega),
          if_pos (by omega)]
        rw [List.getD_eq_getElem?_getD, c1]; rfl
      · by_cases j1 : j = 3 * i + 1
        · subst j1
          rw [if_neg (by omega), if_pos (by omega), if_pos (by omega), if_pos (by omega)]
          rw [List.getD_eq_getElem?_getD, c2]; rfl
        · by_cases j2 : j = 3 * i + 2
          · subst j2
            rw [if_pos (by omega), if_pos (by omega), if_pos (by omega)]
            rw [List.getD_eq_getElem?_getD, c3]; rfl
          · rw [if_neg (by omega), if_neg (by omega), if_neg (by omega), if_neg (by omega)]
    · have hne : ∀ d, d < 3 → k * n * 3 + 3 * k + d ≠ i * (3 * n) + j := by
        intro d hd h
        rcases Nat.lt_or_gt_of_ne hik with hlt | hlt
        · have : (i + 1) * (3 * n) ≤ k * (3 * n) := Nat.mul_le_mul_right _ hlt
          have e : (i + 1) * (3 * n) = i * (3 * n) + 3 * n := by ring
          omega
        · have : (k + 1) * (3 * n) ≤ i * (3 * n) := Nat.mul_le_mul_right _ hlt
          have e : (k + 1) * (3 * n) = k * (3 * n) + 3 * n := by ring
          omega
      rw [if_neg (hne 2 (by omega)), if_neg (hne 1 (by omega)), if_neg (show k * n * 3 + 3 * k ≠ _ from hne 0 (by omega))]
      by_cases hlt : i < k
      · rw [if_pos hlt, if_pos (by omega)]
      · rw [if_neg hlt, if_neg (by omega)]

theorem triples_set (n : ℕ) : ∀ (t : List ℝ), t.length = 3 * n → ∀ i j (u : V3 ℝ) (x : ℝ),
    (triples t)[i]? = some u →
    (triples (t.set j x))[i]? = some (if j = 3 * i then ⟨x, u.y, u.z⟩ else
      if j = 3 * i + 1 then ⟨u.x, x, u.z⟩ else if j = 3 * i + 2 then ⟨u.x, u.y, x⟩ else u) := by
  intro t ht i j u x hu
  have ht' : (t.set j x).length = 3 * n := by rw [List.length_set]; exact ht
  have hi : i < n := by
    have := (List.getElem?_eq_some_iff.1 hu).1
    rwa [triples_length n t ht] at this
  have hi' : i < (triples (t.set j x)).length := by rw [triples_length n _ ht']; exact hi
  rw [List.getElem?_eq_getElem hi']
  obtain ⟨a1, a2, a3⟩ := getElem_triples n t ht i u hu
  obtain ⟨b1, b2, b3⟩ := getElem_triples n (t.set j x) ht' i _ (List.getElem?_eq_getElem hi')
  rw [List.getElem?_set] at b1 b2 b3
  congr 1
  by_cases j0 : j = 3 * i
  · rw [if_pos j0]
    rw [if_pos (by omega), if_pos (by omega)] at b1
    rw [if_neg (by omega), a2] at b2
    rw [if_neg (by omega), a3] at b3
    injection b1 with b1; injection b2 with b2; injection b3 with b3
    ext
    · exact b1.symm
    · exact b2.symm
    · exact b3.symm
  · rw [if_neg j0]
    rw [if_neg (by omega), a1] at b1
    by_cases j1 : j = 3 * i + 1
    · rw [if_pos j1]
      rw [if_pos (by omega), if_pos (by omega)] at b2
      rw [if_neg (by omega), a3] at b3
      injection b1 with b1; injection b2 with b2; injection b3 with b3
      ext
      · exact b1.symm
      · exact b2.symm
      · exact b3.symm
    · rw [if_neg j1]
      rw [if_neg (by omega), a2] at b2
      by_cases j2 : j = 3 * i + 2
      · rw [if_pos j2]
        rw [if_pos (by omega), if_pos (by omega)] at b3
        injection b1 with b1; injection b2 with b2; injection b3 with b3
        ext
        · exact b1.symm
        · exact b2.symm
        · exact b3.symm
      · rw [if_neg j2]
        rw [if_neg (by omega), a3] at b3
        injection b1 with b1; injection b2 with b2; injection b3 with b3
        ext
        · exact b1.symm
        · exact b2.symm
        · exact b3.symm

/-- **C45, gradient.** `compute_tc_grad` returns an array of `nseg * 3 nseg` numbers; the entry in
row `i`, column `j` (row-major) is the partial derivative of the `i`-th throttle constraint with
respect to the `j`-th throttle component: varying that component alone, the constraint computed by
`compute_throttle_constraints` has this derivative at the current value. -/
theorem C45_tc_grad_is_jacobian (l : Leg ℝ) (ht : l.throttles.length = 3 * l.nseg) :
    ∃ g, tcGrad l = .ok g ∧ g.length = l.nseg * (3 * l.nseg) ∧
      ∀ i j, i < l.nseg → j < 3 * l.nseg → ∃ d con, g[i * (3 * l.nseg) + j]? = some d ∧
        (∀ x, ∃ cs, throttleConstraints { l with throttles := l.throttles.set j x } = .ok cs ∧
          cs[i]? = some (con x)) ∧
        HasDerivAt con d (l.throttles.getD j 0) := by
  obtain ⟨g, h1, h2, h3⟩ := fold_set l.throttles l.nseg ht l.nseg le_rfl
  refine ⟨g, h1, by rw [h2]; ring, ?_⟩
  intro i j hi hj
  have hil : i < (triples l.throttles).length := by rw [triples_length l.nseg _ ht]; exact hi
  have hu : (triples l.throttles)[i]? = some (triples l.throttles)[i] := List.getElem?_eq_getElem hil
  set u := (triples l.throttles)[i] with hudef
  obtain ⟨a1, a2, a3⟩ := getElem_triples l.nseg _ ht i u hu
  let w : ℝ → V3 ℝ := fun x => if j = 3 * i then ⟨x, u.y, u.z⟩ else
      if j = 3 * i + 1 then ⟨u.x, x, u.z⟩ else if j = 3 * i + 2 then ⟨u.x, u.y, x⟩ else u
  refine ⟨tcEntry l.throttles i j, fun x => V3.dot (w x) (w x) - 1, ?_, ?_, ?_⟩
  · rw [h3 i j hi hj, if_pos hi]
  · intro x
    refine ⟨_, throttleConstraints_eq { l with throttles := l.throttles.set j x }
      (by simp only [List.length_set]; exact ht), ?_⟩
    rw [List.getElem?_map, triples_set l.nseg l.throttles ht i j u x hu]
    rfl
  · have hsq : ∀ (a b y : ℝ), HasDerivAt (fun x => a + (x * x) + b - 1) (2 * y) y := by
      intro a b y
      have h := (((hasDerivAt_id y).mul (hasDerivAt_id y)).const_add a).add_const b |>.sub_const 1
      refine h.congr_deriv ?_
      show 1 * y + y * 1 = 2 * y
      ring
    unfold tcEntry
    by_cases j0 : j = 3 * i
    · rw [if_pos (by omega), List.getD_eq_getElem?_getD, j0, a1]
      have e : (fun x => V3.dot (w x) (w x) - 1) = fun x => 0 + (x * x) + (u.y * u.y + u.z * u.z) - 1 := by
        funext x; simp only [w, if_pos j0, V3.dot]; ring
      rw [e]; exact hsq _ _ _
    · by_cases j1 : j = 3 * i + 1
      · rw [if_pos (by omega), List.getD_eq_getElem?_getD, j1, a2]
        have e : (fun x => V3.dot (w x) (w x) - 1) = fun x => u.x * u.x + (x * x) + (u.z * u.z) - 1 := by
          funext x; simp only [w, if_neg j0, if_pos j1, V3.dot]
        rw [e]; exact hsq _ _ _
      · by_cases j2 : j = 3 * i + 2
        · rw [if_pos (by omega), List.getD_eq_getElem?_getD, j2, a3]
          have e : (fun x => V3.dot (w x) (w x) - 1) = fun x => (u.x * u.x + u.y * u.y) + (x * x) + 0 - 1 := by
            funext x; simp only [w, if_neg j0, if_neg j1, if_pos j2, V3.dot]; ring
          rw [e]; exact hsq _ _ _
        · rw [if_neg (by omega)]
          have e : (fun x => V3.dot (w x) (w x) - 1) = fun _ => V3.dot u u - 1 := by
            funext x; simp only [w, if_neg j0, if_neg j1, if_neg j2]
          rw [e]; exact hasDerivAt_const _ _

/-- A two-segment leg: hypotheses met, the gradient array has 12 entries. -/
example (x : RV ℝ) : ∃ g, tcGrad ⟨x, 1, [3, 4, 5, 6, 7, 8], x, 1, 1, 1, 1, 1, 1, 2, 1, 1⟩ = .ok g ∧
    g.length = 12 ∧ g[7]? = some 0 ∧ g[9]? = some 12 := by
  obtain ⟨g, h1, h2, h3⟩ := fold_set [3, 4, 5, 6, 7, 8] 2 rfl 2 le_rfl
  refine ⟨g, h1, h2, ?_, ?_⟩
  · have := h3 1 1 (by norm_num) (by norm_num)
    norm_num [tcEntry] at this
    exact this
  · have := h3 1 3 (by norm_num) (by norm_num)
    norm_num [tcEntry] at this
    exact this

end Kep3.SF
