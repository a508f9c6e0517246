import Verif.SF.GradModel
import Verif.SF.Props43
import Mathlib.Analysis.Calculus.Deriv.Inv
import Mathlib.Analysis.Calculus.Deriv.Mul
import Mathlib.Analysis.SpecialFunctions.Sqrt
import Mathlib.Analysis.SpecialFunctions.ExpDeriv
import Mathlib.Tactic.FieldSimp

/-!
# Chain rule through `gradients_multiple_impulses`

Everything is differentiated along curves: a one-parameter family of arguments, differentiable at 0.
-/

namespace Kep3.SF

open Kep3 SFSpec

/-- Differentiability at 0 of a curve of states with velocity `x'`. -/
def StateDeriv (X : ℝ → RV ℝ) (x' : Fin 6 → ℝ) : Prop :=
  ∀ r, HasDerivAt (fun e => vec (X e) r) (x' r) 0

/-- `Φ` is the state transition matrix of `φ` at `(x, t)` and `φ` solves the equations of motion there:
along every differentiable curve through `(x, t)`, `φ` has derivative `Φ x' + dyn t'`. -/
def FlowDeriv (φ : RV ℝ → ℝ → RV ℝ) (Φ : RV ℝ → ℝ → Matrix (Fin 6) (Fin 6) ℝ) (mu : ℝ) (x : RV ℝ)
    (t : ℝ) : Prop :=
  ∀ (X : ℝ → RV ℝ) (T : ℝ → ℝ) (x' : Fin 6 → ℝ) (t' : ℝ), X 0 = x → T 0 = t → StateDeriv X x' →
    HasDerivAt T t' 0 →
    StateDeriv (fun e => φ (X e) (T e)) ((Φ x t).mulVec x' + t' • dyn (φ x t) mu)

/-- A differentiable family of arguments with `n` segments. `T'` is the derivative of the duration
`n dt` of this half of the leg. -/
structure Family (G : ℝ → GradArgs) (n : ℕ) (x' : Fin 6 → ℝ) (ms' : ℝ) (u' : ℕ → V3 ℝ) (T' : ℝ) :
    Prop where
  len : ∀ e, (G e).us.length = n
  npos : 0 < n
  rvs : StateDeriv (fun e => (G e).rvs) x'
  ms : HasDerivAt (fun e => (G e).ms) ms' 0
  us : ∀ i k, i < n → HasDerivAt (fun e => V3.get ((G e).u i) k) (V3.get (u' i) k) 0
  dt : HasDerivAt (fun e => (G e).dt) (T' / n) 0
  c : ∀ e, (G e).c = (G e).maxThrust * (G e).dt
  a : ∀ e, (G e).a = (G 0).a
  thrust : ∀ e, (G e).maxThrust = (G 0).maxThrust
  mu : ∀ e, (G e).mu = (G 0).mu
  ms0 : (G 0).ms ≠ 0
  us0 : ∀ i, i < n → (G 0).u i ≠ 0

/-- A row of the internal arrays applied to the velocity of the curve. -/
noncomputable def pair (n : ℕ) (ms' : ℝ) (u' : ℕ → V3 ℝ) (T' : ℝ) (r : ℕ → ℝ) : ℝ :=
  ∑ i ∈ Finset.range n, ∑ k : Fin 3, r (3 * i + k) * V3.get (u' i) k + r (3 * n) * ms' + r (3 * n + 1) * T'

section pair
variable (n : ℕ) (ms' : ℝ) (u' : ℕ → V3 ℝ) (T' : ℝ)

theorem pair_add (r s : ℕ → ℝ) : pair n ms' u' T' (fun j => r j + s j) = pair n ms' u' T' r + pair n ms' u' T' s := by
  unfold pair
  simp only [add_mul, Finset.sum_add_distrib]
  ring

theorem pair_smul (c : ℝ) (r : ℕ → ℝ) : pair n ms' u' T' (fun j => c * r j) = c * pair n ms' u' T' r := by
  unfold pair
  simp only [mul_assoc, ← Finset.mul_sum]
  ring

theorem pair_sub (r s : ℕ → ℝ) : pair n ms' u' T' (fun j => r j - s j) = pair n ms' u' T' r - pair n ms' u' T' s := by
  have := pair_add n ms' u' T' r (fun j => (-1) * s j)
  rw [pair_smul] at this
  rw [show (fun j => r j - s j) = fun j => r j + (-1) * s j by funext j; ring, this]
  ring

theorem pair_sum {ι : Type} (s : Finset ι) (r : ι → ℕ → ℝ) :
    pair n ms' u' T' (fun j => ∑ i ∈ s, r i j) = ∑ i ∈ s, pair n ms' u' T' (r i) := by
  classical
  induction s using Finset.induction_on with
  | empty => simp [pair]
  | insert a s ha ih =>
    rw [Finset.sum_insert ha, ← ih, ← pair_add]
    congr 1
    funext j
    rw [Finset.sum_insert ha]

theorem pair_du {i : ℕ} (hi : i < n) (k : Fin 3) : pair n ms' u' T' (GradArgs.du i k) = V3.get (u' i) k := by
  unfold pair GradArgs.du
  have h1 : (if 3 * n = 3 * i + (k : ℕ) then (1 : ℝ) else 0) = 0 := if_neg (by omega)
  have h2 : (if 3 * n + 1 = 3 * i + (k : ℕ) then (1 : ℝ) else 0) = 0 := if_neg (by omega)
  rw [h1, h2, zero_mul, zero_mul, add_zero, add_zero]
  rw [Finset.sum_eq_single i]
  · rw [Finset.sum_eq_single k]
    · simp
    · intro k' _ hk'
      rw [if_neg (by intro h; apply hk'; ext; omega), zero_mul]
    · intro h; exact absurd (Finset.mem_univ k) h
  · intro i' _ hi'
    apply Finset.sum_eq_zero
    intro k' _
    rw [if_neg (by omega), zero_mul]
  · intro h; exact absurd (Finset.mem_range.2 hi) h

theorem pair_dtof (g : GradArgs) (hg : g.n = n) : pair n ms' u' T' g.dtof = T' := by
  unfold pair GradArgs.dtof
  rw [hg]
  have h1 : (if 3 * n = 3 * n + 1 then (1 : ℝ) else 0) = 0 := if_neg (by omega)
  rw [h1, if_pos rfl, Finset.sum_eq_zero]
  · ring
  · intro i hi
    rw [Finset.mem_range] at hi
    apply Finset.sum_eq_zero
    intro k _
    rw [if_neg (by omega), zero_mul]

theorem pair_dm0 (g : GradArgs) (hg : g.n = n) : pair n ms' u' T' (g.dm 0) = ms' := by
  unfold pair GradArgs.dm
  rw [hg]
  have h1 : (if 3 * n + 1 = 3 * n then (1 : ℝ) else 0) = 0 := if_neg (by omega)
  rw [h1, if_pos rfl, Finset.sum_eq_zero]
  · ring
  · intro i hi
    rw [Finset.mem_range] at hi
    apply Finset.sum_eq_zero
    intro k _
    rw [if_neg (by omega), zero_mul]

end pair

section family

variable {G : ℝ → GradArgs} {n : ℕ} {x' : Fin 6 → ℝ} {ms' : ℝ} {u' : ℕ → V3 ℝ} {T' : ℝ}

theorem un_sq (g : GradArgs) (i : ℕ) : g.un i = V3.norm (g.u i) := rfl

theorem m_ne (g : GradArgs) (h : g.ms ≠ 0) (i : ℕ) : g.m i ≠ 0 := by
  induction i with
  | zero => exact h
  | succ i ih => exact mul_ne_zero ih (Real.exp_pos _).ne'

theorem Family.c' (F : Family G n x' ms' u' T') :
    HasDerivAt (fun e => (G e).c) ((G 0).maxThrust * (T' / n)) 0 := by
  have h := F.dt.const_mul (G 0).maxThrust
  refine h.congr_of_eventuallyEq (Filter.Eventually.of_forall fun e => ?_)
  show (G e).c = (G 0).maxThrust * (G e).dt
  rw [F.c, F.thrust]

theorem Family.un' (F : Family G n x' ms' u' T') {i : ℕ} (hi : i < n) :
    HasDerivAt (fun e => (G e).un i)
      ((∑ k, V3.get ((G 0).u i) k * V3.get (u' i) k) / (G 0).un i) 0 := by
  have hx := F.us i 0 hi
  have hy := F.us i 1 hi
  have hz := F.us i 2 hi
  have hx2 : HasDerivAt (fun e => ((G e).u i).x) (u' i).x 0 := hx
  have hy2 : HasDerivAt (fun e => ((G e).u i).y) (u' i).y 0 := hy
  have hz2 : HasDerivAt (fun e => ((G e).u i).z) (u' i).z 0 := hz
  have hs := ((hx2.mul hx2).add (hy2.mul hy2)).add (hz2.mul hz2)
  have hne : ((G 0).u i).x * ((G 0).u i).x + ((G 0).u i).y * ((G 0).u i).y + ((G 0).u i).z * ((G 0).u i).z ≠ 0 := by
    intro h
    exact F.us0 i hi (V3.dot_self_eq_zero.1 h)
  have := hs.sqrt hne
  refine this.congr_deriv ?_
  have hun : (G 0).un i ≠ 0 := fun h => F.us0 i hi (V3.norm_eq_zero.1 h)
  rw [Fin.sum_univ_three]
  show _ / (2 * (G 0).un i) = (((G 0).u i).x * (u' i).x + ((G 0).u i).y * (u' i).y + ((G 0).u i).z * (u' i).z) / (G 0).un i
  field_simp
  ring

theorem Family.m' (F : Family G n x' ms' u' T') : ∀ i, i ≤ n →
    HasDerivAt (fun e => (G e).m i) (pair n ms' u' T' ((G 0).dm i)) 0 := by
  intro i
  induction i with
  | zero =>
    intro _
    rw [pair_dm0 n ms' u' T' (G 0) (F.len 0)]
    exact F.ms
  | succ i ih =>
    intro hi
    have hm := ih (by omega)
    have hun := F.un' (show i < n by omega)
    have hc := F.c'
    have hm0 := m_ne (G 0) F.ms0 i
    have hun0 : (G 0).un i ≠ 0 := fun h => F.us0 i (by omega) (V3.norm_eq_zero.1 h)
    have hD := (hc.div hm hm0).mul hun
    have hE := ((hD.neg).mul_const (G 0).a).exp
    have hall := hm.mul hE
    have heq : (fun e => (G e).m (i + 1)) = fun e => (G e).m i * Real.exp (-((G e).c / (G e).m i * (G e).un i) * (G 0).a) := by
      funext e
      show (G e).m i * Real.exp (-((G e).c / (G e).m i * (G e).un i) * (G e).a) = _
      rw [F.a e]
    rw [heq]
    refine hall.congr_deriv ?_
    have e1 : pair n ms' u' T' ((G 0).dDvn i ((G 0).dm i)) =
        (G 0).c / (G 0).m i / (G 0).un i * (∑ k, V3.get ((G 0).u i) k * V3.get (u' i) k)
          - (G 0).c / (G 0).m i / (G 0).m i * (G 0).un i * pair n ms' u' T' ((G 0).dm i)
          + (G 0).maxThrust / (G 0).m i * (G 0).un i * T' / n := by
      have : (G 0).dDvn i ((G 0).dm i) = fun j =>
          ((G 0).c / (G 0).m i / (G 0).un i * (∑ k, V3.get ((G 0).u i) k * GradArgs.du i k j)
            - (G 0).c / (G 0).m i / (G 0).m i * (G 0).un i * (G 0).dm i j)
            + ((G 0).maxThrust / (G 0).m i * (G 0).un i / n) * (G 0).dtof j := by
        funext j
        unfold GradArgs.dDvn
        rw [show (G 0).n = n from F.len 0]
        ring
      rw [this, pair_add, pair_sub, pair_smul, pair_smul, pair_smul, pair_sum,
        pair_dtof n ms' u' T' (G 0) (F.len 0)]
      simp only [pair_smul, pair_du n ms' u' T' (show i < n by omega)]
      ring
    have e2 : pair n ms' u' T' ((G 0).dm (i + 1)) =
        -(G 0).m (i + 1) * (G 0).a * pair n ms' u' T' ((G 0).dDvn i ((G 0).dm i)) +
          Real.exp (-((G 0).c / (G 0).m i * (G 0).un i) * (G 0).a) * pair n ms' u' T' ((G 0).dm i) := by
      have : (G 0).dm (i + 1) = fun j => (-(G 0).m (i + 1) * (G 0).a) * (G 0).dDvn i ((G 0).dm i) j +
          Real.exp (-((G 0).c / (G 0).m i * (G 0).un i) * (G 0).a) * (G 0).dm i j := by
        funext j; rfl
      rw [this, pair_add, pair_smul, pair_smul]
    rw [e2, e1]
    have e3 : (G 0).m (i + 1) = (G 0).m i * Real.exp (-((G 0).c / (G 0).m i * (G 0).un i) * (G 0).a) := rfl
    rw [e3]
    simp only [Pi.neg_apply, Pi.div_apply, Pi.mul_apply]
    field_simp
    ring

theorem Family.Dv' (F : Family G n x' ms' u' T') {i : ℕ} (hi : i < n) (k : Fin 3) :
    HasDerivAt (fun e => V3.get ((G e).Dv i) k) (pair n ms' u' T' ((G 0).dDv i k)) 0 := by
  have hm := F.m' i hi.le
  have hm0 := m_ne (G 0) F.ms0 i
  have hall := (F.c'.div hm hm0).mul (F.us i k hi)
  have heq : (fun e => V3.get ((G e).Dv i) k) = fun e => (G e).c / (G e).m i * V3.get ((G e).u i) k := by
    funext e
    unfold GradArgs.Dv V3.get
    fin_cases k <;> rfl
  rw [heq]
  refine hall.congr_deriv ?_
  have e1 : (G 0).dDv i k = fun j => ((G 0).c / (G 0).m i * GradArgs.du i k j
      - ((G 0).c / (G 0).m i / (G 0).m i * V3.get ((G 0).u i) k) * (G 0).dm i j)
      + ((G 0).maxThrust / (G 0).m i * V3.get ((G 0).u i) k / n) * (G 0).dtof j := by
    funext j
    unfold GradArgs.dDv
    rw [show (G 0).n = n from F.len 0]
    ring
  rw [e1, pair_add, pair_sub, pair_smul, pair_smul, pair_smul, pair_du n ms' u' T' hi,
    pair_dtof n ms' u' T' (G 0) (F.len 0)]
  simp only [Pi.div_apply]
  field_simp
  ring

/-- Derivative of `dur`. -/
noncomputable def dur' (n : ℕ) (T' : ℝ) (i : ℕ) : ℝ := if i = 0 ∨ i = n then T' / n / 2 else T' / n

theorem Family.dur' (F : Family G n x' ms' u' T') (i : ℕ) :
    HasDerivAt (fun e => (G e).dur i) (dur' n T' i) 0 := by
  have hn : ∀ e, (G e).n = n := F.len
  unfold GradArgs.dur SF.dur'
  by_cases h : i = 0 ∨ i = n
  · simp only [hn, if_pos h]
    exact F.dt.div_const 2
  · simp only [hn, if_neg h]
    exact F.dt

variable {φ : RV ℝ → ℝ → RV ℝ} {Φ : RV ℝ → ℝ → Matrix (Fin 6) (Fin 6) ℝ}

/-- Velocity of the state before / after the `i`-th propagation, by forward recursion. -/
noncomputable def before' (φ : RV ℝ → ℝ → RV ℝ) (Φ : RV ℝ → ℝ → Matrix (Fin 6) (Fin 6) ℝ) (g : GradArgs)
    (x' : Fin 6 → ℝ) (ms' : ℝ) (u' : ℕ → V3 ℝ) (T' : ℝ) : ℕ → Fin 6 → ℝ
  | 0 => x'
  | i + 1 => ((g.M φ Φ i).mulVec (before' φ Φ g x' ms' u' T' i) + dur' g.n T' i • g.f φ i)
      + GradArgs.Iv.mulVec (fun k => pair g.n ms' u' T' (g.dDv i k))

theorem vec_add (x : RV ℝ) (w : V3 ℝ) (r : Fin 6) :
    vec ⟨x.r, ⟨x.v.x + w.x, x.v.y + w.y, x.v.z + w.z⟩⟩ r = vec x r + (GradArgs.Iv.mulVec (V3.get w)) r := by
  unfold vec GradArgs.Iv V3.get
  fin_cases r <;> simp [Matrix.mulVec, dotProduct, Fin.sum_univ_three]

theorem Family.before' (F : Family G n x' ms' u' T')
    (hflow : ∀ i, i ≤ n → FlowDeriv φ Φ (G 0).mu ((G 0).before φ i) ((G 0).dur i)) :
    ∀ i, i ≤ n → StateDeriv (fun e => (G e).before φ i) (SF.before' φ Φ (G 0) x' ms' u' T' i) := by
  intro i
  induction i with
  | zero => intro _; exact F.rvs
  | succ i ih =>
    intro hi
    have hn : (G 0).n = n := F.len 0
    have h1 := hflow i (by omega) (fun e => (G e).before φ i) (fun e => (G e).dur i) _ _ rfl rfl
      (ih (by omega)) (F.dur' i)
    intro r
    have h2 := h1 r
    have h3 : HasDerivAt (fun e => GradArgs.Iv.mulVec (V3.get ((G e).Dv i)) r)
        (GradArgs.Iv.mulVec (fun k => pair n ms' u' T' ((G 0).dDv i k)) r) 0 := by
      unfold Matrix.mulVec dotProduct
      have := HasDerivAt.fun_sum (u := Finset.univ) (A := fun (k : Fin 3) e => GradArgs.Iv r k * V3.get ((G e).Dv i) k)
        (A' := fun k => GradArgs.Iv r k * pair n ms' u' T' ((G 0).dDv i k)) (x := (0 : ℝ))
        (fun k _ => (F.Dv' (show i < n by omega) k).const_mul (GradArgs.Iv r k))
      exact this
    have h4 := h2.add h3
    have heq : (fun e => vec ((G e).before φ (i + 1)) r) =
        (fun e => vec (φ ((G e).before φ i) ((G e).dur i)) r) + fun e => GradArgs.Iv.mulVec (V3.get ((G e).Dv i)) r := by
      funext e
      exact vec_add _ _ r
    rw [heq]
    refine h4.congr_deriv ?_
    show _ = ((((G 0).M φ Φ i).mulVec (SF.before' φ Φ (G 0) x' ms' u' T' i) + SF.dur' (G 0).n T' i • (G 0).f φ i)
      + GradArgs.Iv.mulVec (fun k => pair (G 0).n ms' u' T' ((G 0).dDv i k))) r
    rw [hn]
    rfl

theorem Family.after' (F : Family G n x' ms' u' T')
    (hflow : ∀ i, i ≤ n → FlowDeriv φ Φ (G 0).mu ((G 0).before φ i) ((G 0).dur i)) :
    StateDeriv (fun e => (G e).after φ n)
      (((G 0).M φ Φ n).mulVec (SF.before' φ Φ (G 0) x' ms' u' T' n) + (T' / n / 2) • (G 0).f φ n) := by
  have h1 := hflow n le_rfl (fun e => (G e).before φ n) (fun e => (G e).dur n) _ _ rfl rfl
    (F.before' hflow n le_rfl) (F.dur' n)
  unfold SF.dur' at h1
  rw [if_pos (Or.inr rfl)] at h1
  exact h1

/-- Unrolling the forward recursion: `Mc` collects the products of the state transition matrices. -/
theorem unroll (g : GradArgs) (x' : Fin 6 → ℝ) (ms' : ℝ) (u' : ℕ → V3 ℝ) (T' : ℝ) :
    ∀ i, i ≤ g.n → (g.Mc φ Φ i).mulVec (before' φ Φ g x' ms' u' T' i) =
      (g.Mc φ Φ 0).mulVec x' +
      ∑ k ∈ Finset.range i, (dur' g.n T' k • (g.Mc φ Φ (k + 1)).mulVec (g.f φ k) +
        (g.Mc φ Φ (k + 1) * GradArgs.Iv).mulVec (fun c => pair g.n ms' u' T' (g.dDv k c))) := by
  intro i
  induction i with
  | zero => intro _; simp [before']
  | succ i ih =>
    intro hi
    have hMc : g.Mc φ Φ i = g.Mc φ Φ (i + 1) * g.M φ Φ i := by
      unfold GradArgs.Mc
      rw [show g.n - i = (g.n - (i + 1)) + 1 by omega]
      show g.McDown φ Φ (g.n - (i + 1)) * g.M φ Φ (g.n - (g.n - (i + 1) + 1)) = _
      rw [show g.n - (g.n - (i + 1) + 1) = i by omega]
    rw [Finset.sum_range_succ, ← add_assoc, ← ih (by omega), hMc]
    show (g.Mc φ Φ (i + 1)).mulVec (((g.M φ Φ i).mulVec (before' φ Φ g x' ms' u' T' i) + dur' g.n T' i • g.f φ i)
      + GradArgs.Iv.mulVec (fun k => pair g.n ms' u' T' (g.dDv i k))) = _
    rw [Matrix.mulVec_add, Matrix.mulVec_add, Matrix.mulVec_smul, Matrix.mulVec_mulVec, Matrix.mulVec_mulVec]
    rw [add_assoc]

theorem mulVec_pair (A : Matrix (Fin 6) (Fin 3) ℝ) (n : ℕ) (ms' : ℝ) (u' : ℕ → V3 ℝ) (T' : ℝ)
    (d : Fin 3 → ℕ → ℝ) (r : Fin 6) :
    A.mulVec (fun c => pair n ms' u' T' (d c)) r = pair n ms' u' T' (fun j => A.mulVec (fun c => d c j) r) := by
  unfold Matrix.mulVec dotProduct
  rw [pair_sum]
  simp only [pair_smul]

/-- **The chain rule, state rows.** -/
theorem Family.state_rows (F : Family G n x' ms' u' T')
    (hflow : ∀ i, i ≤ n → FlowDeriv φ Φ (G 0).mu ((G 0).before φ i) ((G 0).dur i)) (r : Fin 6) :
    HasDerivAt (fun e => vec ((G e).after φ n) r)
      (∑ j : Fin 6, (G 0).gradRvm φ Φ r j * x' j + (G 0).gradRvm φ Φ r 6 * ms' +
        ∑ i ∈ Finset.range n, ∑ k : Fin 3, (G 0).grad φ Φ r (3 * i + k) * V3.get (u' i) k +
        (G 0).grad φ Φ r (3 * n) * T') 0 := by
  have hn : (G 0).n = n := F.len 0
  have hnp := F.npos
  have hn0 : (G 0).n ≠ 0 := by omega
  have h := F.after' hflow r
  refine h.congr_deriv ?_
  have hMn : (G 0).Mc φ Φ n = (G 0).M φ Φ n := by
    unfold GradArgs.Mc
    rw [hn, Nat.sub_self]
    show (G 0).M φ Φ (G 0).n = _
    rw [hn]
  have hu := unroll (φ := φ) (Φ := Φ) (G 0) x' ms' u' T' n (by omega)
  rw [hMn] at hu
  rw [Pi.add_apply, hu]
  -- entries of the arrays
  have g1 : ∀ j : Fin 6, (G 0).gradRvm φ Φ r j = (G 0).Mc φ Φ 0 r j := by
    intro j
    unfold GradArgs.gradRvm
    rw [if_neg hn0, dif_pos r.2, dif_pos j.2]
  have g2 : (G 0).gradRvm φ Φ r 6 = (G 0).gradMs φ Φ r := by
    unfold GradArgs.gradRvm
    rw [if_neg hn0, dif_pos r.2, dif_neg (by norm_num)]
  have g3 : ∀ i ∈ Finset.range n, ∀ k : Fin 3, (G 0).grad φ Φ r (3 * i + k) = (G 0).gradU φ Φ r (3 * i + k) := by
    intro i hi k
    rw [Finset.mem_range] at hi
    unfold GradArgs.grad
    rw [if_neg hn0, dif_pos r.2, if_pos (by omega)]
  have g4 : (G 0).grad φ Φ r (3 * n) = (G 0).gradTof φ Φ r := by
    unfold GradArgs.grad
    rw [if_neg hn0, dif_pos r.2, if_neg (by omega)]
  rw [g2, g4]
  simp only [g1]
  rw [Finset.sum_congr rfl (fun i hi => Finset.sum_congr rfl (fun k _ => by rw [g3 i hi k]))]
  -- the impulse part is a pairing
  set W : ℕ → ℝ := fun j => ∑ i ∈ Finset.range n, ((G 0).Mc φ Φ (i + 1) * GradArgs.Iv).mulVec (fun k => (G 0).dDv i k j) r with hW
  have hWU : ∀ j, (G 0).gradU φ Φ r j = W j := by intro j; unfold GradArgs.gradU; rw [hn]
  have hWM : (G 0).gradMs φ Φ r = W (3 * n) := by unfold GradArgs.gradMs; rw [hn]
  have hpair : ∑ i ∈ Finset.range n, ((G 0).Mc φ Φ (i + 1) * GradArgs.Iv).mulVec
      (fun c => pair n ms' u' T' ((G 0).dDv i c)) r = pair n ms' u' T' W := by
    rw [hW, pair_sum]
    exact Finset.sum_congr rfl fun i _ => mulVec_pair _ _ _ _ _ _ _
  have hdrift : ∑ k ∈ Finset.range n, SF.dur' n T' k * ((G 0).Mc φ Φ (k + 1)).mulVec ((G 0).f φ k) r =
      T' / n * (∑ i ∈ Finset.range (n - 1), ((G 0).Mc φ Φ (i + 2)).mulVec ((G 0).f φ (i + 1)) r
        + 1 / 2 * ((G 0).Mc φ Φ 1).mulVec ((G 0).f φ 0) r) := by
    obtain ⟨m, rfl⟩ : ∃ m, n = m + 1 := ⟨n - 1, by omega⟩
    rw [Finset.sum_range_succ', Nat.add_sub_cancel, mul_add, Finset.mul_sum]
    congr 1
    · apply Finset.sum_congr rfl
      intro k hk
      rw [Finset.mem_range] at hk
      unfold SF.dur'
      rw [if_neg (by omega)]
    · unfold SF.dur'
      rw [if_pos (Or.inl rfl)]
      ring
  have hTof : (G 0).gradTof φ Φ r = ((1 / 2 : ℝ) * (G 0).f φ n r +
      (∑ i ∈ Finset.range (n - 1), ((G 0).Mc φ Φ (i + 2)).mulVec ((G 0).f φ (i + 1)) r
        + 1 / 2 * ((G 0).Mc φ Φ 1).mulVec ((G 0).f φ 0) r)) / n + W (3 * n + 1) := by
    unfold GradArgs.gradTof
    rw [hn, add_assoc ((1 / 2 : ℝ) * (G 0).f φ n r)]
  rw [hTof, hWM]
  simp only [hWU, Pi.add_apply, Finset.sum_apply, Pi.smul_apply, smul_eq_mul, hn]
  rw [Finset.sum_add_distrib, hdrift, hpair]
  unfold pair Matrix.mulVec dotProduct
  ring

/-- **The chain rule, mass row.** -/
theorem Family.mass_row (F : Family G n x' ms' u' T') :
    HasDerivAt (fun e => (G e).m n)
      (∑ j : Fin 6, (G 0).gradRvm φ Φ 6 j * x' j + (G 0).gradRvm φ Φ 6 6 * ms' +
        ∑ i ∈ Finset.range n, ∑ k : Fin 3, (G 0).grad φ Φ 6 (3 * i + k) * V3.get (u' i) k +
        (G 0).grad φ Φ 6 (3 * n) * T') 0 := by
  have hn : (G 0).n = n := F.len 0
  have hnp := F.npos
  have hn0 : (G 0).n ≠ 0 := by omega
  refine (F.m' n le_rfl).congr_deriv ?_
  have g1 : ∀ j : Fin 6, (G 0).gradRvm φ Φ 6 j = 0 := by
    intro j
    have := j.2
    unfold GradArgs.gradRvm
    rw [if_neg hn0, dif_neg (by norm_num), if_neg (by omega)]
  have g2 : (G 0).gradRvm φ Φ 6 6 = (G 0).dm n (3 * n) := by
    unfold GradArgs.gradRvm
    rw [if_neg hn0, dif_neg (by norm_num), if_pos rfl, hn]
  have g3 : ∀ i ∈ Finset.range n, ∀ k : Fin 3, (G 0).grad φ Φ 6 (3 * i + k) = (G 0).dm n (3 * i + k) := by
    intro i hi k
    rw [Finset.mem_range] at hi
    unfold GradArgs.grad
    rw [if_neg hn0, dif_neg (by norm_num), if_pos (by omega), hn]
  have g4 : (G 0).grad φ Φ 6 (3 * n) = (G 0).dm n (3 * n + 1) := by
    unfold GradArgs.grad
    rw [if_neg hn0, dif_neg (by norm_num), if_neg (by omega), hn]
  rw [g2, g4]
  simp only [g1, zero_mul, Finset.sum_const_zero, zero_add]
  rw [Finset.sum_congr rfl (fun i hi => Finset.sum_congr rfl (fun k _ => by rw [g3 i hi k]))]
  unfold pair
  ring

end family
end Kep3.SF
