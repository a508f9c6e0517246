import Verif.HF.Lemmas
import Mathlib.Data.Real.Basic
import Mathlib.Data.Matrix.Mul
import Mathlib.Data.Matrix.Basic
import Mathlib.LinearAlgebra.Matrix.Notation
import Mathlib.Algebra.BigOperators.Group.List.Basic
import Mathlib.Algebra.BigOperators.Fin

/-!
# `sims_flanagan_hf::get_relevant_gradients` (C51)

The assembly of the sensitivities of the single segments into the gradients of the mismatch. Entries
in real arithmetic; the segment numbers, the vector `Mn_o` and all indices as in the code (unsigned,
wrapping; reading or writing past the end of a vector is undefined behaviour).
-/

namespace Kep3.HF

open Kep3
open Kep3.SF (usub)

/-- 7×7 matrices. -/
abbrev M7 := Matrix (Fin 7) (Fin 7) ℝ

/-- Element of a vector. -/
def elemAt {α : Type} (a : List α) (i : ℕ) : Res α :=
  match a[i]? with
  | some x => .ok x
  | none => .ub

/-- Assignment to an element of a vector. -/
def putAt {α : Type} (i : ℕ) (x : α) : Mut (List α) Unit := fun a =>
  if i < a.length then (.ok (), a.set i x) else (.ub, a)

/-- `final_M` of the forward loop, src/leg/sims_flanagan_hf.cpp:642-646. -/
noncomputable def finalFwd (nf : ℕ) (M : List M7) (i : ℕ) : Mut (List M7) M7 :=
  if i = 0 then Mut.call (elemAt M (usub nf 1)) else Mut.read fun a => elemAt a i

/-- `final_M` of the backward loop, src/leg/sims_flanagan_hf.cpp:655-659. -/
noncomputable def finalBck (nf : ℕ) (M : List M7) (i : ℕ) : Mut (List M7) M7 :=
  if i = 0 then Mut.call (elemAt M nf) else Mut.read fun a => elemAt a (nf + i)

/-- One round of the forward loop, src/leg/sims_flanagan_hf.cpp:640-648. -/
noncomputable def fwdRound (nf : ℕ) (M : List M7) (i : ℕ) : Mut (List M7) Unit := do
  let cur ← Mut.call (elemAt M (usub (usub nf 1) (i + 1)))
  let fin ← finalFwd nf M i
  putAt (i + 1) (fin * cur)

/-- One round of the backward loop, src/leg/sims_flanagan_hf.cpp:653-661. -/
noncomputable def bckRound (nf : ℕ) (M : List M7) (i : ℕ) : Mut (List M7) Unit := do
  let cur ← Mut.call (elemAt M (nf + (i + 1)))
  let fin ← finalBck nf M i
  putAt (nf + i + 1) (fin * cur)

/-- The products `Mn_o` of the forward segments, src/leg/sims_flanagan_hf.cpp:638-649. -/
noncomputable def fwdProducts (nf : ℕ) (M : List M7) : Mut (List M7) Unit := do
  let m ← Mut.call (elemAt M (usub nf 1))
  putAt 0 m
  forLoop (usub nf 1) (fwdRound nf M)

/-- The products `Mn_o` of the backward segments, src/leg/sims_flanagan_hf.cpp:651-662. -/
noncomputable def bckProducts (nf nb : ℕ) (M : List M7) : Mut (List M7) Unit := do
  let m ← Mut.call (elemAt M nf)
  putAt nf m
  forLoop (usub nb 1) (bckRound nf M)

/-- `Mn_o`, src/leg/sims_flanagan_hf.cpp:631-662. -/
noncomputable def products (nf nb : ℕ) (M : List M7) : Mut (List M7) Unit := do
  ifPos nf (fwdProducts nf M)
  ifPos nb (bckProducts nf nb M)

/-- `corresponding_M` for the throttles of segment `i`, src/leg/sims_flanagan_hf.cpp:691-702. -/
noncomputable def throttleM (nf : ℕ) (Mn : List M7) (i : ℕ) : Res M7 :=
  if i = usub nf 1 then .ok 1
  else if i = nf then .ok (1 * -1)
  else if i ≤ usub nf 2 ∧ 2 ≤ nf then elemAt Mn (usub (usub nf 2) i)
  else if nf < i then do
    let m ← elemAt Mn (usub i 1)
    return m * -1
  else .err .runtimeError

/-- `corresponding_M` for the time of flight, segment `i`, src/leg/sims_flanagan_hf.cpp:714-724. -/
noncomputable def tofM (nf nb : ℕ) (Mn : List M7) (i : ℕ) : Res M7 :=
  if i ≤ usub nf 1 ∧ 0 < nf then elemAt Mn (usub (usub nf 1) i)
  else if (nf : ℤ) - 1 < i ∧ 0 < nb then elemAt Mn i
  else .err .runtimeError

/-- The result of `get_relevant_gradients`; `gradFinal` is the row-major 7×(3 nseg + 1) vector. -/
structure RelGrad where
  gradRvm : M7
  gradRvmBck : M7
  gradFinal : List ℝ

/-- `grad_rvm`, src/leg/sims_flanagan_hf.cpp:664-671. -/
noncomputable def gradStart (nf : ℕ) (Mn : List M7) : Res M7 :=
  if 0 < nf then elemAt Mn (usub nf 1) else .ok 1

/-- `grad_rvm_bck`, src/leg/sims_flanagan_hf.cpp:673-680. -/
noncomputable def gradEnd (n nb : ℕ) (Mn : List M7) : Res M7 :=
  if 0 < nb then (do let m ← elemAt Mn (usub n 1); return m * -1) else .ok (1 * -1)

/-- `get_relevant_gradients`, src/leg/sims_flanagan_hf.cpp:626-735. Matrix products are
`xt::linalg::dot`. -/
noncomputable def relevantGradients (n nf nb : ℕ) (M : List M7) (U : List (Matrix (Fin 7) (Fin 3) ℝ))
    (Fs : List (Fin 7 → ℝ)) : Res RelGrad :=
  match products nf nb M (List.replicate n 0) with
  | (.err e, _) => .err e
  | (.ub, _) => .ub
  | (.ok _, Mn) => do
    let grad ← gradStart nf Mn
    let gradBck ← gradEnd n nb Mn
    let cols ← (List.range n).mapM fun i => do
      let u ← elemAt U i
      let m ← throttleM nf Mn i
      return m * u
    let tof ← (List.range n).foldlM (init := (0 : Fin 7 → ℝ)) fun acc i => do
      let f ← elemAt Fs i
      let m ← tofM nf nb Mn i
      return acc + m.mulVec f
    return { gradRvm := grad, gradRvmBck := gradBck
             gradFinal := (List.finRange 7).flatMap fun r =>
              (cols.flatMap fun c => [c r 0, c r 1, c r 2]) ++ [tof r / n] }

/-! ## Specification -/

/-- Sensitivity of the forward end of the leg to the state at the start of segment `i`: the product of
the segment sensitivities, the last one leftmost. -/
noncomputable def fwdSens (nf : ℕ) (M : List M7) (i : ℕ) : M7 := ((M.take nf).drop i).reverse.prod

/-- Sensitivity of the backward end to the state at which backward segment `i` starts (its later end):
the product of the sensitivities of the segments from `nf` to `i`. -/
noncomputable def bckSens (nf : ℕ) (M : List M7) (i : ℕ) : M7 := ((M.drop nf).take (i + 1 - nf)).prod

/-- What the assembled gradient must contain: for segment `i` the throttle block. -/
noncomputable def throttleBlock (nf : ℕ) (M : List M7) (U : ℕ → Matrix (Fin 7) (Fin 3) ℝ) (i : ℕ) :
    Matrix (Fin 7) (Fin 3) ℝ :=
  if i < nf then fwdSens nf M (i + 1) * U i else -(((M.drop nf).take (i - nf)).prod * U i)

/-- The column of the time of flight. -/
noncomputable def tofColumn (n nf : ℕ) (M : List M7) (f : ℕ → Fin 7 → ℝ) (r : Fin 7) : ℝ :=
  (∑ i ∈ Finset.range n, (if i < nf then fwdSens nf M i else bckSens nf M i).mulVec (f i) r) / n

/-! ## Proofs -/

theorem elemAt_ok {α : Type} {a : List α} {i : ℕ} (h : i < a.length) : elemAt a i = .ok a[i] := by
  unfold elemAt; rw [List.getElem?_eq_getElem h]

theorem putAt_run {α : Type} {a : List α} {i : ℕ} {x : α} (h : i < a.length) :
    putAt i x a = (.ok (), a.set i x) := by
  unfold putAt; rw [if_pos h]

theorem fwdSens_step {nf : ℕ} {M : List M7} {i : ℕ} (hi : i < nf) (hM : nf ≤ M.length) :
    fwdSens nf M i = fwdSens nf M (i + 1) * M[i] := by
  unfold fwdSens
  rw [List.drop_eq_getElem_cons (by rw [List.length_take]; omega), List.reverse_cons, List.prod_append,
    List.prod_singleton, List.getElem_take]

theorem fwdSens_end {nf : ℕ} {M : List M7} : fwdSens nf M nf = 1 := by
  unfold fwdSens
  rw [List.drop_eq_nil_of_le (by rw [List.length_take]; omega)]
  rfl

theorem bck_step {nf : ℕ} {M : List M7} {j : ℕ} (hj : nf + j < M.length) :
    ((M.drop nf).take (j + 1)).prod = ((M.drop nf).take j).prod * M[nf + j] := by
  rw [List.take_succ_eq_append_getElem (by rw [List.length_drop]; omega), List.prod_append,
    List.prod_singleton, List.getElem_drop]

/-- What `Mn_o` contains after both loops. -/
def GoodProducts (nf n : ℕ) (M Mn : List M7) : Prop :=
  Mn.length = n ∧ (∀ i (_ : i < nf) (h : nf - 1 - i < Mn.length), Mn[nf - 1 - i] = fwdSens nf M i) ∧
    ∀ i (_ : nf ≤ i) (h : i < Mn.length), Mn[i] = bckSens nf M i

theorem products_good {n nf nb : ℕ} {M : List M7} (hn : n < 2 ^ 32) (hsum : nf + nb = n) (hM : M.length = n) :
    ∃ Mn, products nf nb M (List.replicate n 0) = (.ok (), Mn) ∧ GoodProducts nf n M Mn := by
  -- forward part
  have hf : ∃ Mn, ifPos nf (fwdProducts nf M) (List.replicate n 0) =
      (.ok (), Mn) ∧ Mn.length = n ∧ ∀ i (_ : i < nf) (h : nf - 1 - i < Mn.length), Mn[nf - 1 - i] = fwdSens nf M i := by
    unfold ifPos
    by_cases h0 : 0 < nf
    · rw [if_pos h0]
      have hu : usub nf 1 = nf - 1 := SF.usub_le (by omega) (by omega)
      obtain ⟨Mn, e, hl, hI⟩ := forLoop_inv (fwdRound nf M) (nf - 1) ((List.replicate n (0 : M7)).set 0 (M[nf - 1]'(by omega)))
        (fun i a => a.length = n ∧ ∀ k ≤ i, ∀ h : k < a.length, a[k] = fwdSens nf M (nf - 1 - k))
        (by
          intro i hi a ⟨hl, hI⟩
          have hu2 : usub (usub nf 1) (i + 1) = nf - 1 - (i + 1) := by
            rw [hu]; exact SF.usub_le (by omega) (by omega)
          have hfin : finalFwd nf M i a = (.ok (fwdSens nf M (nf - 1 - i)), a) := by
            unfold finalFwd
            by_cases hi0 : i = 0
            · subst hi0
              rw [if_pos rfl, hu, elemAt_ok (by omega), Mut.call_run, Nat.sub_zero, fwdSens_step (by omega) (by omega),
                show nf - 1 + 1 = nf by omega, fwdSens_end, one_mul]
            · rw [if_neg hi0, Mut.read_run, elemAt_ok (by omega), hI i le_rfl]
          refine ⟨a.set (i + 1) (fwdSens nf M (nf - 1 - (i + 1))), ?_, by simp [hl], ?_⟩
          · unfold fwdRound
            rw [hu2, elemAt_ok (by omega), Mut.call_ok_bind, Mut.bind_run, hfin]
            dsimp only
            rw [putAt_run (by omega), fwdSens_step (i := nf - 1 - (i + 1)) (by omega) (by omega)]
            simp only [show nf - 1 - (i + 1) + 1 = nf - 1 - i by omega]
          · intro k hk h
            rw [List.getElem_set]
            by_cases hk1 : i + 1 = k
            · rw [if_pos hk1, hk1]
            · rw [if_neg hk1]; exact hI k (by omega) _)
        ⟨by simp, by
          intro k hk h
          obtain rfl : k = 0 := by omega
          rw [List.getElem_set_self, Nat.sub_zero, fwdSens_step (by omega) (by omega)]
          simp only [show nf - 1 + 1 = nf by omega, fwdSens_end, one_mul]⟩
      refine ⟨Mn, ?_, hl, ?_⟩
      · unfold fwdProducts
        rw [hu, elemAt_ok (by omega), Mut.call_ok_bind, Mut.bind_run, putAt_run (by simp; omega)]
        exact e
      · intro i hi h
        rw [hI _ (by omega) h, show nf - 1 - (nf - 1 - i) = i by omega]
    · rw [if_neg h0]
      exact ⟨_, rfl, by simp, fun i hi => by omega⟩
  obtain ⟨M1, e1, l1, i1⟩ := hf
  have hb : ∃ Mn, ifPos nb (bckProducts nf nb M) M1 =
      (.ok (), Mn) ∧ GoodProducts nf n M Mn := by
    unfold ifPos
    by_cases h0 : 0 < nb
    · rw [if_pos h0]
      have hu : usub nb 1 = nb - 1 := SF.usub_le (by omega) (by omega)
      obtain ⟨Mn, e, hl, hI1, hI2⟩ := forLoop_inv (bckRound nf M) (nb - 1) (M1.set nf (M[nf]'(by omega)))
        (fun i a => a.length = n ∧ (∀ i (_ : i < nf) (h : nf - 1 - i < a.length), a[nf - 1 - i] = fwdSens nf M i) ∧
          ∀ k ≤ i, ∀ h : nf + k < a.length, a[nf + k] = bckSens nf M (nf + k))
        (by
          intro i hi a ⟨hl, hI1, hI2⟩
          have hfin : finalBck nf M i a = (.ok (bckSens nf M (nf + i)), a) := by
            unfold finalBck
            by_cases hi0 : i = 0
            · subst hi0
              rw [if_pos rfl, elemAt_ok (by omega), Mut.call_run]
              unfold bckSens
              rw [show nf + 0 + 1 - nf = 0 + 1 by omega, bck_step (by omega)]
              simp
            · rw [if_neg hi0, Mut.read_run, elemAt_ok (by omega), hI2 i le_rfl]
          refine ⟨a.set (nf + (i + 1)) (bckSens nf M (nf + (i + 1))), ?_, by simp [hl], ?_, ?_⟩
          · unfold bckRound
            rw [elemAt_ok (by omega), Mut.call_ok_bind, Mut.bind_run, hfin]
            dsimp only
            rw [putAt_run (by omega)]
            unfold bckSens
            rw [show nf + (i + 1) + 1 - nf = (i + 1) + 1 by omega, bck_step (j := i + 1) (by omega),
              show nf + i + 1 - nf = i + 1 by omega]
            rfl
          · intro k hk h
            rw [List.getElem_set, if_neg (by omega)]
            exact hI1 k hk _
          · intro k hk h
            rw [List.getElem_set]
            by_cases hk1 : k = i + 1
            · subst hk1; rw [if_pos rfl]
            · rw [if_neg (by omega)]; exact hI2 k (by omega) _)
        ⟨by simp [l1], by
          intro i hi h
          rw [List.getElem_set, if_neg (by omega)]
          exact i1 i hi _, by
          intro k hk h
          obtain rfl : k = 0 := by omega
          simp only [Nat.add_zero] at h ⊢
          rw [List.getElem_set_self]
          unfold bckSens
          rw [show nf + 1 - nf = 0 + 1 by omega, bck_step (by omega)]
          simp⟩
      refine ⟨Mn, ?_, hl, hI1, ?_⟩
      · unfold bckProducts
        rw [hu, elemAt_ok (by omega), Mut.call_ok_bind, Mut.bind_run, putAt_run (by omega)]
        exact e
      · intro i hi h
        obtain ⟨k, rfl⟩ : ∃ k, i = nf + k := ⟨i - nf, by omega⟩
        exact hI2 k (by omega) h
    · rw [if_neg h0]
      exact ⟨_, rfl, l1, i1, fun i hi h => by omega⟩
  obtain ⟨M2, e2, g2⟩ := hb
  refine ⟨M2, ?_, g2⟩
  unfold products
  rw [Mut.bind_run, e1]
  exact e2

theorem throttleM_good {n nf : ℕ} {M Mn : List M7} (hn : n < 2 ^ 32) (hnf : nf ≤ n) (hM : M.length = n)
    (hg : GoodProducts nf n M Mn) {i : ℕ} (hi : i < n) :
    throttleM nf Mn i = .ok (if i < nf then fwdSens nf M (i + 1) else -((M.drop nf).take (i - nf)).prod) := by
  obtain ⟨hl, g1, g2⟩ := hg
  unfold throttleM
  rcases Nat.eq_zero_or_pos nf with h0 | h0
  · subst h0
    have hu1 : usub 0 1 = 2 ^ 32 - 1 := rfl
    rw [if_neg (by rw [hu1]; omega), if_neg (Nat.not_lt_zero i)]
    by_cases hi0 : i = 0
    · rw [if_pos hi0, hi0]; simp
    · rw [if_neg hi0, if_neg (by omega), if_pos (by omega), SF.usub_le (by omega) (by omega), elemAt_ok (by omega),
        g2 (i - 1) (by omega)]
      unfold bckSens
      simp only [Res.ok_bind]
      rw [show i - 1 + 1 - 0 = i - 0 by omega, mul_neg, mul_one]
      rfl
  · have hu1 : usub nf 1 = nf - 1 := SF.usub_le (by omega) (by omega)
    rw [hu1]
    by_cases h1 : i = nf - 1
    · rw [if_pos h1, if_pos (by omega), show i + 1 = nf by omega, fwdSens_end]
    · rw [if_neg h1]
      by_cases h2 : i = nf
      · rw [if_pos h2, if_neg (by omega), h2]; simp
      · rw [if_neg h2]
        by_cases h3 : i < nf
        · have hu2 : usub nf 2 = nf - 2 := SF.usub_le (by omega) (by omega)
          rw [hu2, if_pos (by omega), if_pos h3, SF.usub_le (by omega) (by omega), elemAt_ok (by omega)]
          have := g1 (i + 1) (by omega) (by omega)
          simp only [show nf - 1 - (i + 1) = nf - 2 - i by omega] at this
          rw [this]
        · have h4 : ¬(i ≤ usub nf 2 ∧ 2 ≤ nf) := by
            rintro ⟨a, b⟩
            rw [SF.usub_le (by omega) (by omega)] at a; omega
          rw [if_neg h4, if_pos (by omega), if_neg h3, SF.usub_le (by omega) (by omega), elemAt_ok (by omega),
            g2 (i - 1) (by omega)]
          unfold bckSens
          simp only [Res.ok_bind]
          rw [show i - 1 + 1 - nf = i - nf by omega, mul_neg, mul_one]
          rfl

theorem tofM_good {n nf nb : ℕ} {M Mn : List M7} (hn : n < 2 ^ 32) (hsum : nf + nb = n)
    (hg : GoodProducts nf n M Mn) {i : ℕ} (hi : i < n) :
    tofM nf nb Mn i = .ok (if i < nf then fwdSens nf M i else bckSens nf M i) := by
  obtain ⟨hl, g1, g2⟩ := hg
  unfold tofM
  by_cases h0 : i < nf
  · rw [SF.usub_le (n := nf) (by omega) (by omega), if_pos (by omega), if_pos h0,
      SF.usub_le (by omega) (by omega), elemAt_ok (by omega), g1 i h0]
  · have h1 : ¬(i ≤ usub nf 1 ∧ 0 < nf) := by
      rintro ⟨a, b⟩
      rw [SF.usub_le (by omega) (by omega)] at a; omega
    rw [if_neg h1, if_pos (by omega), if_neg h0, elemAt_ok (by omega), g2 i (by omega)]

theorem mapM_ok {α β : Type} (f : α → Res β) (g : α → β) (xs : List α) (h : ∀ x ∈ xs, f x = .ok (g x)) :
    xs.mapM f = .ok (xs.map g) := by
  induction xs with
  | nil => rfl
  | cons x xs ih =>
    rw [List.mapM_cons, h x (by simp), Res.ok_bind, ih fun y hy => h y (by simp [hy])]
    rfl

theorem foldlM_sum {n : ℕ} (g : ℕ → Fin 7 → ℝ) (step : (Fin 7 → ℝ) → ℕ → Res (Fin 7 → ℝ))
    (h : ∀ acc, ∀ i < n, step acc i = .ok (acc + g i)) :
    (List.range n).foldlM step 0 = .ok (∑ i ∈ Finset.range n, g i) := by
  induction n with
  | zero => rfl
  | succ n ih =>
    rw [List.range_succ, List.foldlM_append, ih fun acc i hi => h acc i (by omega), Res.ok_bind,
      Finset.sum_range_succ]
    show (step _ n >>= fun s => pure s) = _
    rw [h _ n (by omega)]
    rfl

/-- **C51.** For every split of the segments and every segment sensitivities, `get_relevant_gradients`
uses only existing elements and returns: the product of the forward sensitivities (last segment
leftmost); minus the product of the backward ones; and the row-major matrix whose columns are, for each
segment, the sensitivity of its end to its throttles transported to the matching point, followed by the
mean over the segments of the transported state derivatives. -/
theorem C51_assembly {n nf nb : ℕ} {M : List M7} {U : List (Matrix (Fin 7) (Fin 3) ℝ)} {Fs : List (Fin 7 → ℝ)}
    (hn : n < 2 ^ 32) (hsum : nf + nb = n) (hM : M.length = n) (hU : U.length = n) (hF : Fs.length = n) :
    relevantGradients n nf nb M U Fs = .ok
      { gradRvm := (M.take nf).reverse.prod
        gradRvmBck := -(M.drop nf).prod
        gradFinal := (List.finRange 7).flatMap fun r =>
          ((List.range n).flatMap fun i => (List.finRange 3).map fun k => throttleBlock nf M (U.getD · 0) i r k) ++
            [tofColumn n nf M (Fs.getD · 0) r] } := by
  obtain ⟨Mn, e, hg⟩ := products_good hn hsum hM
  have hg' := hg
  obtain ⟨hl, g1, g2⟩ := hg'
  unfold relevantGradients
  rw [e]
  dsimp only
  have a1 : gradStart nf Mn = .ok (M.take nf).reverse.prod := by
    unfold gradStart
    by_cases h0 : 0 < nf
    · rw [if_pos h0, SF.usub_le (by omega) (by omega), elemAt_ok (by omega)]
      have := g1 0 h0 (by omega)
      simp only [Nat.sub_zero] at this
      rw [this]; rfl
    · rw [if_neg h0, show nf = 0 by omega]; rfl
  have a2 : gradEnd n nb Mn = .ok (-(M.drop nf).prod) := by
    unfold gradEnd
    by_cases h0 : 0 < nb
    · rw [if_pos h0, SF.usub_le (by omega) (by omega), elemAt_ok (by omega), g2 (n - 1) (by omega)]
      unfold bckSens
      rw [List.take_of_length_le (by rw [List.length_drop]; omega), Res.ok_bind, mul_neg, mul_one]
      rfl
    · rw [if_neg h0, List.drop_eq_nil_of_le (by omega)]; simp
  have a3 : ((List.range n).mapM fun i => do
      let u ← elemAt U i
      let m ← throttleM nf Mn i
      return m * u) = .ok ((List.range n).map (throttleBlock nf M (U.getD · 0))) := by
    refine mapM_ok _ _ _ fun i hi => ?_
    rw [List.mem_range] at hi
    rw [elemAt_ok (by omega), Res.ok_bind, throttleM_good hn (by omega) hM hg hi, Res.ok_bind]
    unfold throttleBlock
    simp only [List.getD_eq_getElem?_getD, List.getElem?_eq_getElem (show i < U.length by omega), Option.getD_some]
    by_cases h0 : i < nf
    · rw [if_pos h0, if_pos h0]; rfl
    · rw [if_neg h0, if_neg h0, Matrix.neg_mul]; rfl
  have a4 : ((List.range n).foldlM (init := (0 : Fin 7 → ℝ)) fun acc i => do
      let f ← elemAt Fs i
      let m ← tofM nf nb Mn i
      return acc + m.mulVec f) = .ok (∑ i ∈ Finset.range n,
        (if i < nf then fwdSens nf M i else bckSens nf M i).mulVec (Fs.getD i 0)) := by
    refine foldlM_sum (fun i => (if i < nf then fwdSens nf M i else bckSens nf M i).mulVec (Fs.getD i 0)) _ ?_
    intro acc i hi
    rw [elemAt_ok (by omega), Res.ok_bind, tofM_good hn hsum hg hi, Res.ok_bind]
    simp only [List.getD_eq_getElem?_getD, List.getElem?_eq_getElem (show i < Fs.length by omega), Option.getD_some]
    rfl
  rw [a1, Res.ok_bind, a2, Res.ok_bind, a3, Res.ok_bind, a4, Res.ok_bind]
  refine congrArg Res.ok ?_
  congr 1
  refine congrArg (fun g => (List.finRange 7).flatMap g) (funext fun r => ?_)
  rw [List.flatMap_map]
  unfold tofColumn
  rw [Finset.sum_apply]
  rfl

theorem flatMap_getD {α : Type} (xs : List α) (g : α → List ℝ) {w : ℕ} (hw : ∀ x, (g x).length = w) {r j : ℕ}
    (hr : r < xs.length) (hj : j < w) : (xs.flatMap g).getD (w * r + j) 0 = (g xs[r]).getD j 0 := by
  induction xs generalizing r with
  | nil => simp at hr
  | cons x xs ih =>
    rw [List.flatMap_cons]
    cases r with
    | zero => simp only [List.getD_eq_getElem?_getD]; rw [List.getElem?_append_left (by rw [hw]; omega)]; simp
    | succ r =>
      have hi := ih (r := r) (by simpa using hr)
      simp only [List.getD_eq_getElem?_getD] at hi ⊢
      rw [List.getElem?_append_right (by rw [hw, Nat.mul_succ]; omega), hw,
        show w * (r + 1) + j - w = w * r + j by rw [Nat.mul_succ]; omega, hi]
      simp

section positions
variable {n : ℕ} (A : Fin 7 → ℕ → Fin 3 → ℝ) (t : Fin 7 → ℝ)

/-- The layout of the returned vector. -/
noncomputable def layout (n : ℕ) (A : Fin 7 → ℕ → Fin 3 → ℝ) (t : Fin 7 → ℝ) : List ℝ :=
  (List.finRange 7).flatMap fun r =>
    ((List.range n).flatMap fun i => (List.finRange 3).map fun k => A r i k) ++ [t r]

theorem row_length (r : Fin 7) :
    (((List.range n).flatMap fun i => (List.finRange 3).map fun k => A r i k) ++ [t r]).length = 3 * n + 1 := by
  simp [List.length_flatMap]; omega

theorem layout_length : (layout n A t).length = 7 * (3 * n + 1) := by
  unfold layout
  simp [List.length_flatMap]; omega

/-- Row `r`, segment `i`, component `k` is entry `(3 n + 1) r + 3 i + k`. -/
theorem layout_throttle (r : Fin 7) {i : ℕ} (hi : i < n) (k : Fin 3) :
    (layout n A t).getD ((3 * n + 1) * r + (3 * i + k)) 0 = A r i k := by
  unfold layout
  rw [flatMap_getD _ _ (row_length A t) (by simp) (by have := k.2; omega)]
  simp only [List.getElem_finRange, Fin.cast_mk]
  have := flatMap_getD (List.range n) (fun i => (List.finRange 3).map fun k => A r i k) (w := 3) (by simp)
    (by simpa using hi) k.2
  rw [List.getD_eq_getElem?_getD] at this ⊢
  rw [List.getElem?_append_left (by simp [List.length_flatMap]; have := k.2; omega)]
  simp only [Fin.eta]
  rw [this]
  simp

/-- The time of flight is the last entry of each row. -/
theorem layout_tof (r : Fin 7) : (layout n A t).getD ((3 * n + 1) * r + 3 * n) 0 = t r := by
  unfold layout
  rw [flatMap_getD _ _ (row_length A t) (by simp) (by omega)]
  simp only [List.getElem_finRange, Fin.cast_mk]
  have hl : ((List.range n).flatMap fun i => (List.finRange 3).map fun k => A r i k).length = 3 * n := by
    simp [List.length_flatMap]; omega
  rw [List.getD_eq_getElem?_getD, List.getElem?_append_right (by simp only [Fin.eta]; omega)]
  simp [hl]

end positions

/-- Case with two forward segments and one backward segment: the throttle block of the first segment is
transported through the second. -/
example (A B C : M7) (U V W : Matrix (Fin 7) (Fin 3) ℝ) (f : Fin 7 → ℝ) :
    ∃ g, relevantGradients 3 2 1 [A, B, C] [U, V, W] [f, f, f] = .ok g ∧ g.gradRvm = B * A ∧ g.gradRvmBck = -C ∧
      g.gradFinal[2]? = some ((B * U) 0 2) ∧ g.gradFinal[6]? = some (-(W 0 0)) := by
  refine ⟨_, C51_assembly (n := 3) (nf := 2) (nb := 1) (by norm_num) rfl rfl rfl rfl, ?_, ?_, ?_, ?_⟩
  · simp
  · simp
  · simp [List.finRange_succ, List.range_succ, throttleBlock, fwdSens]
  · simp [List.finRange_succ, List.range_succ, throttleBlock, fwdSens]

end Kep3.HF
