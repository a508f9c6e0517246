import Verif.Python.Arrays
import Verif.Lagr.Props25
import Verif.Stark.Props41

/-!
# C79: what the propagators return to Python

`propagate_lagrangian` returns tuples of different form with and without the state transition matrix; `propagate_lagrangian_v`
a list with the flat matrix; `propagate_var` of the Stark problem two arrays.
-/

namespace Kep3.PyArr
open Real Filter Topology V3

/-- The result of `propagate_lagrangian` in Python, pykep/core.cpp:340-364. -/
inductive PropRet
  /-- `py::make_tuple(pl_retval.first, computed_stm)`: `([r, v], stm)` -/
  | withStm (rv : RV ℝ) (stm : Arr2)
  /-- `py::make_tuple(pl_retval.first[0], pl_retval.first[1])`: `(r, v)` -/
  | plain (r v : V3 ℝ)

/-- `propagate_lagrangian` in Python, pykep/core.cpp:336-367. `none`: the numbers are NaN. -/
noncomputable def propagate (sv : Solver) (x : RV ℝ) (tof mu : ℝ) (stm : Bool) : Res (Option PropRet) := do
  let q ← propagateLagrangianStm sv x tof mu stm
  return q.map fun q => match q.2 with
    | some m => .withStm q.1 ⟨6, 6, List.ofFn m⟩
    | none => .plain q.1.r q.1.v

/-- The result of `propagate_lagrangian_v`: the pairs of its C++ result as they are, pykep/core.cpp:368-369,
src/core_astro/propagate_lagrangian.cpp:158-168. -/
noncomputable def propagateV (sv : Solver) (x : RV ℝ) (tofs : List ℝ) (mu : ℝ) (stm : Bool) :
    Res (List (Option (RV ℝ × Option (Fin 36 → ℝ)))) :=
  tofs.mapM fun tof => propagateLagrangianStm sv x tof mu stm

/-- `propagate_var` of the Stark problem in Python, pykep/core.cpp:390-441. -/
def starkVar (E : Stark.Env ℝ) (x : Fin 7 → ℝ) (u : Fin 3 → ℝ) (tof : ℝ) (p : Stark.Prob ℝ) :
    Res ((Fin 7 → ℝ) × Arr2 × Arr2) := do
  let q ← (Stark.propagateVar E x u tof p).1
  return (q.1, ⟨7, 7, List.ofFn q.2.1⟩, ⟨7, 3, List.ofFn q.2.2⟩)

theorem at_ofFn {r c n : ℕ} (m : Fin n → ℝ) (hn : n = r * c) {i j : ℕ} (hi : i < r) (hj : j < c) (h : c * i + j < n) :
    (⟨r, c, List.ofFn m⟩ : Arr2).at i j = .ok (m ⟨c * i + j, h⟩) := by
  rw [at_ok (by simp [hn]) hi hj]
  simp only [List.getD_eq_getElem?_getD, List.getElem?_ofFn, mul_comm i c, h, dif_pos, Option.getD_some]

/-- **C79**: without the flag the tuple `(r, v)` of the C++ state is returned; with the flag the state and an array of shape
(6, 6) whose entry in row `i` and column `j` is the derivative of component `i` of the final state in component `j` of the
initial state, along the two-body motion. The errors are those of C++. -/
theorem C79_propagate {sv : Solver} (hsv : sv.Sound) {x : RV ℝ} {mu : ℝ} (hmu : 0 < mu) (hh : cross x.r x.v ≠ 0) {tof : ℝ}
    (hr : HypRange x mu tof) :
    (∀ y, propagateLagrangian sv x tof mu = .ok (some y) ↔ propagate sv x tof mu false = .ok (some (.plain y.r y.v))) ∧
    (∀ y, propagateLagrangian sv x tof mu = .ok (some y) ↔ ∃ a, propagate sv x tof mu true = .ok (some (.withStm y a))) ∧
    (∀ b e, propagateLagrangian sv x tof mu = .err e ↔ propagate sv x tof mu b = .err e) ∧
    ∀ y a, propagate sv x tof mu true = .ok (some (.withStm y a)) → ∃ C : Fin 6 → Fin 6 → ℝ,
      (∀ i j : Fin 6, a.at i j = .ok (C i j)) ∧ (∀ i j, 6 ≤ i ∨ 6 ≤ j → a.at i j = .err .index) ∧
      ∀ P : (Fin 6 → ℝ) → Fin 6 → ℝ, (∀ᶠ q in 𝓝 (pack x), ∃ γ, TwoBody mu γ ∧ γ 0 = unpack q ∧ γ tof = unpack (P q)) →
        ∀ i, HasFDerivAt (fun q => P q i)
          (∑ j : Fin 6, C i j • ContinuousLinearMap.proj (R := ℝ) (φ := fun _ => ℝ) j) (pack x) := by
  have key : ∀ b, (∃ e, propagateLagrangianStm sv x tof mu b = .err e ∧ propagate sv x tof mu b = .err e) ∨
      (propagateLagrangianStm sv x tof mu b = .ub ∧ propagate sv x tof mu b = .ub) ∨
      (propagateLagrangianStm sv x tof mu b = .ok none ∧ propagate sv x tof mu b = .ok none) ∨
      ∃ y m, propagateLagrangianStm sv x tof mu b = .ok (some (y, m)) ∧ (m.isSome ↔ b = true) ∧
        propagate sv x tof mu b = .ok (some (match m with
          | some m => .withStm y ⟨6, 6, List.ofFn m⟩
          | none => .plain y.r y.v)) := by
    intro b
    have hf := (C24_stm_flag sv x tof mu b).2.2
    unfold propagate
    cases h : propagateLagrangianStm sv x tof mu b with
    | err e => exact Or.inl ⟨e, rfl, rfl⟩
    | ub => exact Or.inr (Or.inl ⟨rfl, rfl⟩)
    | ok o =>
      cases o with
      | none => exact Or.inr (Or.inr (Or.inl ⟨rfl, rfl⟩))
      | some ym =>
        obtain ⟨y, m⟩ := ym
        exact Or.inr (Or.inr (Or.inr ⟨y, m, rfl, hf y m h, rfl⟩))
  refine ⟨fun y => ?_, fun y => ?_, fun b e => ?_, fun y a ha => ?_⟩
  · rw [← (C24_stm_flag sv x tof mu false).1 y]
    rcases key false with ⟨e, h1, h2⟩ | ⟨h1, h2⟩ | ⟨h1, h2⟩ | ⟨y', m, h1, h3, h2⟩
    · simp [h1, h2]
    · simp [h1, h2]
    · simp [h1, h2]
    · cases m with
      | some m => simp at h3
      | none =>
        rw [h1, h2]
        simp only [Res.ok.injEq, Option.some.injEq, Prod.mk.injEq, PropRet.plain.injEq, exists_and_left]
        constructor
        · rintro ⟨rfl, -⟩; exact ⟨rfl, rfl⟩
        · rintro ⟨a, b⟩; exact ⟨by cases y; cases y'; simp_all, none, rfl⟩
  · rw [← (C24_stm_flag sv x tof mu true).1 y]
    rcases key true with ⟨e, h1, h2⟩ | ⟨h1, h2⟩ | ⟨h1, h2⟩ | ⟨y', m, h1, h3, h2⟩
    · simp [h1, h2]
    · simp [h1, h2]
    · simp [h1, h2]
    · cases m with
      | none => simp at h3
      | some m => simp [h1, h2]
  · rw [← (C24_stm_flag sv x tof mu b).2.1 e]
    rcases key b with ⟨e, h1, h2⟩ | ⟨h1, h2⟩ | ⟨h1, h2⟩ | ⟨y', m, h1, h3, h2⟩ <;> rw [h1, h2] <;> simp
  · rcases key true with ⟨e, h1, h2⟩ | ⟨h1, h2⟩ | ⟨h1, h2⟩ | ⟨y', m, h1, h3, h2⟩
    · rw [h2] at ha; exact nomatch ha
    · rw [h2] at ha; exact nomatch ha
    · rw [h2] at ha; exact nomatch ha
    · cases m with
      | none => simp at h3
      | some m =>
        rw [h2] at ha
        simp only [Res.ok.injEq, Option.some.injEq, PropRet.withStm.injEq] at ha
        obtain ⟨rfl, rfl⟩ := ha
        refine ⟨fun i j => m ⟨6 * i.val + j.val, by omega⟩, fun i j => at_ofFn m rfl i.2 j.2 _, fun i j hij => ?_,
          fun P hP i => C25_jacobian hsv hmu hh hr h1 hP i⟩
        unfold Arr2.at
        rw [if_neg (by dsimp only; omega)]

/-- **C79**: the list of `propagate_lagrangian_v` has for each time the state of `propagate_lagrangian`, and with the flag
the same 36 numbers, flat: number `6 i + j` of the list is the entry in row `i` and column `j` of the array. -/
theorem C79_propagate_v (sv : Solver) (x : RV ℝ) (tofs : List ℝ) (mu : ℝ) {l : List (Option (RV ℝ × Option (Fin 36 → ℝ)))}
    {b : Bool} (h : propagateV sv x tofs mu b = .ok l) : l.length = tofs.length ∧
      ∀ (k : ℕ) (t : ℝ), tofs[k]? = some t → ∀ (y : RV ℝ) (m : Option (Fin 36 → ℝ)), l[k]? = some (some (y, m)) → (b = false → m = none ∧
        propagate sv x t mu false = .ok (some (.plain y.r y.v))) ∧
      (b = true → ∃ M a, m = some M ∧ propagate sv x t mu true = .ok (some (.withStm y a)) ∧
        ∀ i j : Fin 6, a.at i j = .ok (M ⟨6 * i.val + j.val, by omega⟩)) := by
  have hF : List.Forall₂ (fun t q => propagateLagrangianStm sv x t mu b = .ok q) tofs l := by
    unfold propagateV at h
    induction tofs generalizing l with
    | nil =>
      rw [List.mapM_nil] at h
      rw [← Res.ok.inj h]
      exact .nil
    | cons t ts ih =>
      rw [List.mapM_cons] at h
      cases h1 : propagateLagrangianStm sv x t mu b with
      | ok y =>
        cases h2 : ts.mapM fun tof => propagateLagrangianStm sv x tof mu b with
        | ok zs =>
          rw [h1, h2] at h
          have h : Res.ok (y :: zs) = Res.ok l := h
          rw [← Res.ok.inj h]
          exact List.Forall₂.cons h1 (ih h2)
        | err e => rw [h1, h2] at h; exact nomatch h
        | ub => rw [h1, h2] at h; exact nomatch h
      | err e => rw [h1] at h; exact nomatch h
      | ub => rw [h1] at h; exact nomatch h
  refine ⟨hF.length_eq.symm, fun k t hk y m hl => ?_⟩
  obtain ⟨hk1, hk2⟩ := List.getElem?_eq_some_iff.1 hk
  obtain ⟨hl1, hl2⟩ := List.getElem?_eq_some_iff.1 hl
  have hq := (List.forall₂_iff_get.1 hF).2 k hk1 hl1
  simp only [List.get_eq_getElem, hk2, hl2] at hq
  have hf := (C24_stm_flag sv x t mu b).2.2 y m hq
  refine ⟨fun hb => ?_, fun hb => ?_⟩
  · subst hb
    have : m = none := by cases m <;> simp_all
    subst this
    exact ⟨rfl, by unfold propagate; rw [hq]; rfl⟩
  · subst hb
    cases m with
    | none => simp at hf
    | some M =>
      exact ⟨M, ⟨6, 6, List.ofFn M⟩, rfl, by unfold propagate; rw [hq]; rfl, fun i j => at_ofFn M rfl i.2 j.2 _⟩

/-- **C79**: the arrays of `propagate_var`, after any history of the object: shapes (7, 7) and (7, 3), entries the derivatives
of the components of the final state in the components of the initial state and of the thrust. -/
theorem C79_stark (E : Stark.Env ℝ) (φ) (hE : Stark.Exact E φ) (mu veff tol : ℝ) (ops : List (Stark.Op ℝ))
    (x : Fin 7 → ℝ) (u : Fin 3 → ℝ) (tof : ℝ) {y y' : Fin 7 → ℝ} {a b : Arr2}
    (h1 : (Stark.propagate E x u tof (ops.foldl (Stark.Op.exec E) (Stark.make E mu veff tol))).1 = .ok y)
    (h2 : starkVar E x u tof (ops.foldl (Stark.Op.exec E) (Stark.make E mu veff tol)) = .ok (y', a, b)) :
    y' = y ∧ ∃ (A : Fin 7 → Fin 7 → ℝ) (B : Fin 7 → Fin 3 → ℝ),
      (∀ i j : Fin 7, a.at i j = .ok (A i j)) ∧ (∀ i j, 7 ≤ i ∨ 7 ≤ j → a.at i j = .err .index) ∧
      (∀ (i : Fin 7) (j : Fin 3), b.at i j = .ok (B i j)) ∧ (∀ i j, 7 ≤ i ∨ 3 ≤ j → b.at i j = .err .index) ∧
      (∀ i j, HasDerivAt (fun s => φ (Stark.lastMu mu ops) (Stark.lastVeff veff ops) (Function.update x j s) u tof i)
        (A i j) (x j)) ∧
      ∀ i j, HasDerivAt (fun s => φ (Stark.lastMu mu ops) (Stark.lastVeff veff ops) x (Function.update u j s) tof i)
        (B i j) (u j) := by
  unfold starkVar at h2
  cases h3 : (Stark.propagateVar E x u tof (ops.foldl (Stark.Op.exec E) (Stark.make E mu veff tol))).1 with
  | err e => rw [h3] at h2; exact nomatch h2
  | ub => rw [h3] at h2; exact nomatch h2
  | ok q =>
    obtain ⟨q1, q2, q3⟩ := q
    rw [h3] at h2
    have h2 : Res.ok (q1, (⟨7, 7, List.ofFn q2⟩ : Arr2), (⟨7, 3, List.ofFn q3⟩ : Arr2)) = Res.ok (y', a, b) := h2
    simp only [Res.ok.injEq, Prod.mk.injEq] at h2
    obtain ⟨rfl, rfl, rfl⟩ := h2
    obtain ⟨-, e1, e2, e3⟩ := Stark.C41_sensitivities E φ hE mu veff tol ops x u tof y q1 q2 q3 h1 h3
    refine ⟨e1, fun i j => q2 ⟨7 * i + j, by omega⟩, fun i j => q3 ⟨3 * i + j, by omega⟩,
      fun i j => at_ofFn q2 rfl i.2 j.2 _, fun i j hij => ?_, fun i j => at_ofFn q3 rfl i.2 j.2 _, fun i j hij => ?_, e2, e3⟩
    · unfold Arr2.at
      rw [if_neg (by dsimp only; omega)]
    · unfold Arr2.at
      rw [if_neg (by dsimp only; omega)]

/-- The hypotheses of `C79_propagate` can be met, by a circular orbit for every time. -/
example (tof : ℝ) : ∃ y a, propagate idealSolver ⟨⟨1, 0, 0⟩, ⟨0, 1, 0⟩⟩ tof 1 true = .ok (some (.withStm y a)) := by
  have hh : cross (⟨1, 0, 0⟩ : V3 ℝ) ⟨0, 1, 0⟩ ≠ 0 := by
    intro h
    have := congrArg V3.z h
    simp [cross] at this
  have hE : energy (⟨⟨1, 0, 0⟩, ⟨0, 1, 0⟩⟩ : RV ℝ) 1 = -1 / 2 := by
    simp [energy, V3.norm, dot]
    norm_num
  have hr : HypRange (⟨⟨1, 0, 0⟩, ⟨0, 1, 0⟩⟩ : RV ℝ) 1 tof := fun h => by rw [hE] at h; norm_num at h
  obtain ⟨y, M, h⟩ := (C25_returns idealSolver_sound one_pos hh (by rw [hE]; norm_num) hr).resolve_right
    fun h => h.2 idealSolver_quick
  obtain ⟨-, h2, -⟩ := C79_propagate idealSolver_sound one_pos hh hr
  exact ⟨y, (h2 y).1 (((C24_stm_flag idealSolver _ tof 1 true).1 y).1 ⟨_, h⟩)⟩

/-- The hypotheses of `C79_stark` can be met. -/
example : ∃ y y' a b, (Stark.propagate Stark.exEnv (fun _ => 2) ![3, 0, 0] 2 (Stark.make Stark.exEnv 1 1 1)).1 = .ok y ∧
    starkVar Stark.exEnv (fun _ => 2) ![3, 0, 0] 2 (Stark.make Stark.exEnv 1 1 1) = .ok (y', a, b) := by
  have h1 : ∃ y, (Stark.propagate Stark.exEnv (fun _ => 2) ![3, 0, 0] 2 (Stark.make Stark.exEnv 1 1 1)).1 = .ok y := by
    rw [Stark.propagate_run]
    simp [Stark.exEnv]
  have h2 : ∃ q, (Stark.propagateVar Stark.exEnv (fun _ => 2) ![3, 0, 0] 2 (Stark.make Stark.exEnv 1 1 1)).1 = .ok q := by
    rw [Stark.propagateVar_run]
    simp [Stark.exEnv]
  obtain ⟨y, hy⟩ := h1
  obtain ⟨q, hq⟩ := h2
  exact ⟨y, q.1, ⟨7, 7, List.ofFn q.2.1⟩, ⟨7, 3, List.ofFn q.2.2⟩, hy, by unfold starkVar; rw [hq]; rfl⟩

end Kep3.PyArr
