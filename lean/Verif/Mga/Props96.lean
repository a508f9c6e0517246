import Verif.Mga.EncodingDouble

/-!
# C96: the times of flight of an MGA trajectory in double precision
-/

namespace Kep3.Mga
open Real Fl

/-- Doubles, and a logarithm accurate to four units. -/
structure Num.Double (A : Num) : Prop where
  /-- Round to nearest, ties to even. -/
  rd : A.rd = rn
  log : ∀ x, 0 < x → |A.log x - Real.log x| ≤ 4 * u * |Real.log x|

/-- A logarithm with correct rounding. -/
noncomputable def Num.rounded : Num := ⟨rn, fun x => rn (Real.log x)⟩

theorem Num.rounded_double : Num.rounded.Double where
  rd := rfl
  log x _ := (rn_err' _).trans (by have := u_pos; have := abs_nonneg (Real.log x); nlinarith)

/-! ## The loop -/

/-- The decoded times when the sum of the times so far is `S`. -/
noncomputable def etaTimesD (M S : ℝ) : List ℝ → List ℝ
  | [] => []
  | e :: es => rn (rn (M - S) * e) :: etaTimesD M (rn (S + rn (rn (M - S) * e))) es

/-- The sum of the times after all genes. -/
noncomputable def etaSumD (M S : ℝ) : List ℝ → ℝ
  | [] => S
  | e :: es => etaSumD M (rn (S + rn (rn (M - S) * e))) es

@[simp] theorem etaTimesD_length (M S : ℝ) (es : List ℝ) : (etaTimesD M S es).length = es.length := by
  induction es generalizing S with
  | nil => rfl
  | cons e es ih => simp [etaTimesD, ih]

theorem etaTimesD_append (M S : ℝ) (a b : List ℝ) : etaTimesD M S (a ++ b) = etaTimesD M S a ++ etaTimesD M (etaSumD M S a) b := by
  induction a generalizing S with
  | nil => simp [etaTimesD, etaSumD]
  | cons e a ih => simp [etaTimesD, etaSumD, ih]

theorem etaSumD_append (M S : ℝ) (a b : List ℝ) : etaSumD M S (a ++ b) = etaSumD M (etaSumD M S a) b := by
  induction a generalizing S with
  | nil => simp [etaSumD]
  | cons e a ih => simp [etaSumD, ih]

theorem sumD_times (M : ℝ) (es : List ℝ) : ∀ S, (etaTimesD M S es).foldl (fun s t => rn (s + t)) S = etaSumD M S es := by
  induction es with
  | nil => intro S; rfl
  | cons e es ih => intro S; rw [etaTimesD, List.foldl_cons, ih, etaSumD]

section
variable {A : Num} (hA : A.Double)
include hA

theorem sum_double (M : ℝ) (es : List ℝ) : A.sum (etaTimesD M 0 es) = etaSumD M 0 es := by
  unfold Num.sum
  rw [hA.rd]
  exact sumD_times M es 0

theorem etaLoopD_step {dt x0 : ℝ} {es : List ℝ} (n : ℕ) : ∀ k i, i + k = n → 1 ≤ i → n ≤ es.length →
    (List.range' i k).foldlM (fun T i => do
      let xi ← idx (x0 :: es) (i + 1)
      return T.set i (A.rd (A.rd (dt - A.sum (T.take i)) * xi))) (etaTimesD dt 0 (es.take i) ++ List.replicate (n - i) 0) =
      .ok (etaTimesD dt 0 (es.take n)) := by
  intro k
  induction k with
  | zero => intro i hi _ _; simp [show i = n by omega]
  | succ k ih =>
    intro i hi h1 hn
    rw [List.range'_succ, List.foldlM_cons]
    have hlt : i < es.length := by omega
    have e1 : idx (x0 :: es) (i + 1) = .ok es[i] := by simp [idx, hlt]
    have hlen : (etaTimesD dt 0 (es.take i)).length = i := by simp; omega
    rw [e1]
    simp only [Res.ok_bind, Res.pure_eq]
    have e2 : (etaTimesD dt 0 (es.take i) ++ List.replicate (n - i) 0).take i = etaTimesD dt 0 (es.take i) := by
      rw [List.take_append_of_le_length (by omega), List.take_of_length_le (by omega)]
    rw [e2, sum_double hA, ← ih (i + 1) (by omega) (by omega) hn]
    congr 1
    rw [show n - i = n - (i + 1) + 1 by omega, List.replicate_succ, List.set_append_right _ _ (by omega), hlen,
      Nat.sub_self, List.set_cons_zero, List.take_succ_eq_append_getElem hlt, etaTimesD_append, hA.rd]
    simp [etaTimesD]

/-- The loop computes the decoded times. -/
theorem etaLoopD_eq {dt x0 : ℝ} (hdt : Rep dt) {es : List ℝ} {n : ℕ} (h1 : 1 ≤ n) (hn : n ≤ es.length) :
    A.etaLoop dt (x0 :: es) n = .ok (etaTimesD dt 0 (es.take n)) := by
  unfold Num.etaLoop
  obtain ⟨m, rfl⟩ : ∃ m, n = m + 1 := ⟨n - 1, by omega⟩
  obtain ⟨e, es, rfl⟩ : ∃ e es', es = e :: es' := by
    cases es with
    | nil => simp at hn
    | cons e es => exact ⟨e, es, rfl⟩
  have e1 : idx (x0 :: e :: es) 1 = .ok e := rfl
  have e2 : idx (List.replicate (m + 1) (0 : ℝ)) 0 = .ok 0 := rfl
  rw [e1, e2]
  simp only [Res.ok_bind]
  rw [← etaLoopD_step hA (x0 := x0) (m + 1) (m + 1 - 1) 1 (by omega) le_rfl hn]
  congr 1
  simp [etaTimesD, List.replicate_succ, hA.rd, rn_rep hdt]

theorem eta2directD_eq {tof t0 : ℝ} (ht : Rep tof) {es : List ℝ} (hl : es ≠ []) :
    A.eta2direct .eta tof (t0 :: es) = .ok (t0 :: etaTimesD tof 0 es) := by
  unfold Num.eta2direct
  have : 1 ≤ es.length := List.length_pos_iff.2 hl
  simp [etaLoopD_eq hA ht this le_rfl, idx]

end

/-! ## Error analysis -/

theorem rn_pos' {x : ℝ} (h : 0 < x) : 0 < rn x := by
  have := (abs_le.1 (rn_err' x)).1
  rw [abs_of_pos h] at this
  have := u_small
  nlinarith [u_pos]

/-- The bound of the error of what is left after `k` times, when it should be `r`. -/
noncomputable def remErr (M r : ℝ) (k : ℕ) : ℝ := 2.01 * u * (M - r) + k * u * M

/-- One time. -/
theorem etaStep {M S r e : ℝ} {k : ℕ} (hk : k ≤ 1000) (hS : 0 ≤ S) (hSM : S ≤ M) (hr : 0 ≤ r) (hrM : r ≤ M) (he : 0 < e) (he1 : e ≤ 1 - 1 / 10 ^ 14)
    (hE : |M - S - r| ≤ remErr M r k) :
    0 ≤ rn (rn (M - S) * e) ∧ |rn (rn (M - S) * e) - r * e| ≤ (k + 4.1) * u * M ∧ (remErr M r k < r → 0 < rn (rn (M - S) * e)) ∧
    0 ≤ rn (S + rn (rn (M - S) * e)) ∧ rn (S + rn (rn (M - S) * e)) ≤ rn M ∧ S + rn (rn (M - S) * e) ≤ M ∧
    |M - (S + rn (rn (M - S) * e)) - (M - S) * (1 - e)| ≤ 2.01 * u * (M - S) * e ∧
    |M - rn (S + rn (rn (M - S) * e)) - r * (1 - e)| ≤ remErr M (r * (1 - e)) (k + 1) := by
  have hu := u_pos
  have hu2 := u_small
  obtain ⟨ρ, hρ⟩ : ∃ ρ, ρ = M - S := ⟨_, rfl⟩
  have ρ0 : 0 ≤ ρ := by rw [hρ]; linarith
  have ρM : ρ ≤ M := by rw [hρ]; linarith
  have M0 : 0 ≤ M := hS.trans hSM
  rw [← hρ] at hE ⊢
  obtain ⟨E, hEd⟩ : ∃ E, E = remErr M r k := ⟨_, rfl⟩
  rw [← hEd] at hE ⊢
  have E0 : 0 ≤ E := (abs_nonneg _).trans hE
  have hk' : (k : ℝ) ≤ 1000 := by exact_mod_cast hk
  have k0 : (0 : ℝ) ≤ k := Nat.cast_nonneg k
  have uM : 0 ≤ u * M := mul_nonneg hu.le M0
  have hE1 : E ≤ (k + 2.01) * (u * M) := by
    rw [hEd]; unfold remErr
    have : 2.01 * u * (M - r) ≤ 2.01 * u * M := mul_le_mul_of_nonneg_left (by linarith) (by positivity)
    linarith
  -- the time
  have n1 : Near 2.01 (ρ * e) (rn (rn ρ * e)) := by
    have e1 : |rn ρ * e - ρ * e| ≤ u * (ρ * e) := by
      have := rn_err' ρ
      rw [abs_of_nonneg ρ0] at this
      rw [← sub_mul, abs_mul, abs_of_pos he]
      calc _ ≤ u * ρ * e := mul_le_mul_of_nonneg_right this he.le
        _ = _ := by ring
    have c : Near 1 (ρ * e) (rn ρ * e) := ⟨mul_nonneg ρ0 he.le, by norm_num, by norm_num, by rw [one_mul]; exact e1⟩
    exact (c.rn (by norm_num)).mono (by norm_num)
  obtain ⟨t, ht⟩ : ∃ t, t = rn (rn ρ * e) := ⟨_, rfl⟩
  rw [← ht] at n1 ⊢
  have t0 : 0 ≤ t := n1.nonneg
  have te := n1.abs_le
  have ρe : 0 ≤ ρ * e := mul_nonneg ρ0 he.le
  have ρe1 : ρ * e ≤ ρ := by
    calc ρ * e ≤ ρ * 1 := mul_le_mul_of_nonneg_left (by linarith) ρ0
      _ = ρ := mul_one _
  have hd : 2.01 * u * (ρ * e) ≤ 2.01 * (u * M) := by
    calc 2.01 * u * (ρ * e) ≤ 2.01 * u * M := mul_le_mul_of_nonneg_left (ρe1.trans ρM) (by positivity)
      _ = _ := by ring
  have tρ : t ≤ ρ := by
    have h1 := (abs_le.1 te).2
    have h2 : ρ * e ≤ ρ * (1 - 1 / 10 ^ 14) := mul_le_mul_of_nonneg_left he1 ρ0
    have h3 : 2.01 * u * (ρ * e) ≤ 2.01 * (1 / 10 ^ 15) * ρ := by
      calc 2.01 * u * (ρ * e) ≤ 2.01 * (1 / 10 ^ 15) * (ρ * e) := mul_le_mul_of_nonneg_right (by linarith) ρe
        _ ≤ _ := mul_le_mul_of_nonneg_left ρe1 (by norm_num)
    linarith
  have hSt : S + t ≤ M := by rw [hρ] at tρ; linarith
  have hSt0 : 0 ≤ S + t := by linarith
  refine ⟨t0, ?_, fun h => ?_, rn_nonneg hSt0, rn_mono hSt, hSt, ?_, ?_⟩
  · have h1 : |t - r * e| ≤ 2.01 * u * (ρ * e) + E := by
      have : |(ρ - r) * e| ≤ E := by
        rw [abs_mul, abs_of_pos he]
        calc |ρ - r| * e ≤ |ρ - r| * 1 := mul_le_mul_of_nonneg_left (by linarith) (abs_nonneg _)
          _ ≤ E := by rw [mul_one]; exact hE
      calc |t - r * e| = |(t - ρ * e) + (ρ - r) * e| := by ring_nf
        _ ≤ _ := abs_add_le _ _
        _ ≤ _ := add_le_add te this
    calc |t - r * e| ≤ 2.01 * (u * M) + (k + 2.01) * (u * M) := by linarith
      _ ≤ (k + 4.1) * u * M := by linarith
  · have : 0 < ρ := by have := (abs_le.1 hE).1; linarith
    exact n1.pos (mul_pos this he)
  · have : M - (S + t) - ρ * (1 - e) = -(t - ρ * e) := by rw [hρ]; ring
    rw [this, abs_neg]
    calc _ ≤ _ := te
      _ = _ := by ring
  · have hr' := rn_err' (S + t)
    rw [abs_of_nonneg hSt0] at hr'
    have hr'' : |rn (S + t) - (S + t)| ≤ u * M := hr'.trans (mul_le_mul_of_nonneg_left hSt hu.le)
    have id : M - rn (S + t) - r * (1 - e) = (ρ - r) * (1 - e) - (t - ρ * e) - (rn (S + t) - (S + t)) := by rw [hρ]; ring
    have h1 : |(ρ - r) * (1 - e)| ≤ E * (1 - e) := by
      have : 0 ≤ 1 - e := by linarith
      rw [abs_mul, abs_of_nonneg this]
      exact mul_le_mul_of_nonneg_right hE this
    have h2 : ρ ≤ r + E := by have := (abs_le.1 hE).2; linarith
    have h3 : 2.01 * u * (ρ * e) ≤ 2.01 * u * (r * e) + E * e := by
      have : ρ * e ≤ r * e + E * e := by rw [← add_mul]; exact mul_le_mul_of_nonneg_right h2 he.le
      have h4 : 2.01 * u * (ρ * e) ≤ 2.01 * u * (r * e + E * e) := mul_le_mul_of_nonneg_left this (by positivity)
      have h5 : 2.01 * u * (E * e) ≤ 1 * (E * e) := mul_le_mul_of_nonneg_right (by linarith) (by positivity)
      linarith
    have h6 : remErr M (r * (1 - e)) (k + 1) = E + 2.01 * u * (r * e) + u * M := by
      rw [hEd]; unfold remErr; push_cast; ring
    rw [id, h6]
    calc _ ≤ |(ρ - r) * (1 - e) - (t - ρ * e)| + |rn (S + t) - (S + t)| := abs_sub _ _
      _ ≤ |(ρ - r) * (1 - e)| + |t - ρ * e| + u * M := add_le_add (abs_sub _ _) hr''
      _ ≤ E * (1 - e) + (2.01 * u * (r * e) + E * e) + u * M := by linarith
      _ = _ := by ring

/-- The genes of the loop. -/
def Genes (es : List ℝ) : Prop := ∀ e ∈ es, 0 < e ∧ e ≤ 1 - 1 / 10 ^ 14

theorem etaSumD_ok {M : ℝ} (hM : Rep M) : ∀ {es : List ℝ} (_ : Genes es) {S r : ℝ} {k : ℕ} (_ : k + es.length ≤ 1000) (_ : 0 ≤ S) (_ : S ≤ M) (_ : 0 ≤ r) (_ : r ≤ M)
    (_ : |M - S - r| ≤ remErr M r k),
    0 ≤ etaSumD M S es ∧ etaSumD M S es ≤ M ∧ |M - etaSumD M S es - r * (es.map (1 - ·)).prod| ≤ remErr M (r * (es.map (1 - ·)).prod) (k + es.length) ∧
    0 ≤ r * (es.map (1 - ·)).prod ∧ r * (es.map (1 - ·)).prod ≤ M := by
  intro es
  induction es with
  | nil => intro _ S r k _ h1 h2 h3 h4 h5; simpa [etaSumD] using ⟨h1, h2, h5, h3, h4⟩
  | cons e es ih =>
    intro h S r k hk h1 h2 h3 h4 h5
    obtain ⟨g1, g2⟩ := h e (by simp)
    rw [List.length_cons] at hk
    obtain ⟨-, -, -, a1, a2, -, -, a3⟩ := etaStep (by omega) h1 h2 h3 h4 g1 g2 h5
    rw [rn_rep hM] at a2
    have r1 : 0 ≤ r * (1 - e) := mul_nonneg h3 (by linarith)
    have r2 : r * (1 - e) ≤ M := by nlinarith
    have := ih (fun b hb => h b (by simp [hb])) (k := k + 1) (by omega) a1 a2 r1 r2 a3
    rw [etaSumD, List.map_cons, List.prod_cons, ← mul_assoc, List.length_cons, show k + (es.length + 1) = k + 1 + es.length by ring]
    exact this

/-- The times of the loop. -/
theorem etaTimesD_ok {M : ℝ} (hM : Rep M) : ∀ {es : List ℝ} (_ : Genes es) {S r : ℝ} {k : ℕ} (_ : k + es.length ≤ 1000) (_ : 0 ≤ S) (_ : S ≤ M) (_ : 0 ≤ r) (_ : r ≤ M)
    (_ : |M - S - r| ≤ remErr M r k) (i : ℕ) (hi : i < es.length),
    ∃ t t', (etaTimesD M S es)[i]? = some t ∧ (etaTimes r es)[i]? = some t' ∧ 0 ≤ t ∧ |t - t'| ≤ ((k + i : ℕ) + 4.1) * u * M ∧
      (remErr M (r * ((es.take i).map (1 - ·)).prod) (k + i) < r * ((es.take i).map (1 - ·)).prod → 0 < t) := by
  intro es
  induction es with
  | nil => intro _ S r k _ _ _ _ _ _ i hi; simp at hi
  | cons e es ih =>
    intro h S r k hk h1 h2 h3 h4 h5 i hi
    obtain ⟨g1, g2⟩ := h e (by simp)
    rw [List.length_cons] at hk
    obtain ⟨b1, b2, b3, a1, a2, -, -, a3⟩ := etaStep (by omega) h1 h2 h3 h4 g1 g2 h5
    rw [rn_rep hM] at a2
    have r1 : 0 ≤ r * (1 - e) := mul_nonneg h3 (by linarith)
    have r2 : r * (1 - e) ≤ M := by nlinarith
    cases i with
    | zero => exact ⟨_, _, by rw [etaTimesD]; rfl, by rw [etaTimes]; rfl, b1, by simpa using b2, by simpa using b3⟩
    | succ i =>
      obtain ⟨t, t', c1, c2, c3, c4, c5⟩ := ih (fun b hb => h b (by simp [hb])) (k := k + 1) (by omega) a1 a2 r1 r2 a3 i (by simpa using hi)
      refine ⟨t, t', by rw [etaTimesD]; simpa using c1, by rw [etaTimes, show r - r * e = r * (1 - e) by ring]; simpa using c2, c3, ?_, ?_⟩
      · rw [show k + (i + 1) = k + 1 + i by ring]; exact c4
      · rw [List.take_succ_cons, List.map_cons, List.prod_cons, ← mul_assoc, show k + (i + 1) = k + 1 + i by ring]; exact c5

end Kep3.Mga
