import Verif.Mga.Props96
import Verif.Mga.Props54

/-!
# C96: the theorems
-/

namespace Kep3.Mga
open Real Fl

/-- Rounding to a double that is very close. -/
theorem rn_absorb {M x : ℝ} (hM : 0 < M) (hr : Rep M) (hx : x ≤ M) (h : M - x ≤ u / 4 * M) : rn x = M := by
  rcases hx.eq_or_lt with rfl | hlt
  · exact rn_rep hr
  obtain ⟨m, e, hm1, hm2, rfl⟩ : ∃ m e : Int, 2 ^ 52 < m ∧ m ≤ 2 ^ 53 ∧ M = m * (2 : ℝ) ^ e := by
    have h' := rn_rep hr
    unfold rn at h'
    rw [if_neg hM.ne'] at h'
    have h1 : 2 ^ 52 ≤ rhe (M / ulp M) := by
      have h2 := le_abs hM.ne'
      rw [abs_of_pos hM] at h2
      have h3 : (2 ^ 52 : ℝ) * ulp M ≤ rhe (M / ulp M) * ulp M := by rw [h']; exact h2
      have := le_of_mul_le_mul_right h3 (ulp_pos M)
      exact_mod_cast this
    have h2 : rhe (M / ulp M) < 2 ^ 53 := by
      have h2 := abs_lt' M
      rw [abs_of_pos hM] at h2
      have h3 : (rhe (M / ulp M) : ℝ) * ulp M < 2 ^ 53 * ulp M := by rw [h']; exact h2
      have := lt_of_mul_lt_mul_right h3 (ulp_pos M).le
      exact_mod_cast this
    rcases h1.lt_or_eq with h3 | h3
    · exact ⟨_, _, h3, h2.le, h'.symm⟩
    · refine ⟨2 ^ 53, Int.log 2 |M| - 52 - 1, by norm_num, le_rfl, ?_⟩
      rw [zpow_sub_one₀ (by norm_num)]
      have h4 := h'
      rw [← h3] at h4
      push_cast at h4 ⊢
      unfold ulp at h4
      linarith
  have he : (0 : ℝ) < 2 ^ e := by positivity
  have b1 : (2 ^ 52 + 1 : ℝ) ≤ m := by exact_mod_cast hm1
  have b2 : (m : ℝ) ≤ 2 ^ 53 := by exact_mod_cast hm2
  have b3 : u / 4 * ((m : ℝ) * 2 ^ e) ≤ 1 / 4 * 2 ^ e := by
    have : u * m ≤ 1 := by unfold u; linarith
    calc u / 4 * ((m : ℝ) * 2 ^ e) = (u * m) * (1 / 4 * 2 ^ e) := by ring
      _ ≤ 1 * (1 / 4 * 2 ^ e) := mul_le_mul_of_nonneg_right this (by positivity)
      _ = _ := one_mul _
  have b4 : (2 ^ 52 + 1) * (2 : ℝ) ^ e ≤ m * 2 ^ e := mul_le_mul_of_nonneg_right b1 he.le
  have x1 : 2 ^ 52 * (2 : ℝ) ^ e ≤ x := by nlinarith
  have x0 : 0 < x := lt_of_lt_of_le (by positivity) x1
  apply rn_eval m e
  · rw [abs_of_pos x0]; exact x1
  · rw [abs_of_pos x0]; exact lt_of_lt_of_le hlt (mul_le_mul_of_nonneg_right b2 he.le)
  · rw [show (m : ℝ) - x / 2 ^ e = (m * 2 ^ e - x) / 2 ^ e by field_simp, abs_div, abs_of_pos he, div_lt_iff₀ he, abs_of_nonneg (by linarith)]
    nlinarith

theorem remErr_le {M r : ℝ} {k : ℕ} (h0 : 0 ≤ r) : remErr M r k ≤ (k + 2.01) * u * M := by
  unfold remErr
  have : 2.01 * u * (M - r) ≤ 2.01 * u * M := mul_le_mul_of_nonneg_left (by linarith) (by have := u_pos; positivity)
  linarith

theorem remErr_zero (M : ℝ) : |M - 0 - M| ≤ remErr M M 0 := by unfold remErr; simp

theorem prod_nonneg {es : List ℝ} (h : Genes es) : 0 ≤ (es.map (1 - ·)).prod ∧ (es.map (1 - ·)).prod ≤ 1 := by
  induction es with
  | nil => simp
  | cons e es ih =>
    obtain ⟨h1, h2⟩ := ih fun b hb => h b (by simp [hb])
    obtain ⟨h3, h4⟩ := h e (by simp)
    rw [List.map_cons, List.prod_cons]
    exact ⟨mul_nonneg (by linarith) h1, mul_le_one₀ (by linarith) h1 h2⟩

/-- **C96**: in double precision the eta encoding decodes each time of flight up to a few roundings of the total time, none is negative, and a time is positive when
what is left at that point is more than the roundings so far. -/
theorem C96_eta {A : Num} (hA : A.Double) {tof t0 : ℝ} (hr : Rep tof) (h0 : 0 < tof) {es : List ℝ} (hl : es ≠ []) (hn : es.length ≤ 1000)
    (h : ∀ e ∈ es, 0 < e ∧ e ≤ 1 - 1 / 10 ^ 14) :
    ∃ ts ts', A.eta2direct .eta tof (t0 :: es) = .ok (t0 :: ts) ∧ A.decodeTofs .eta tof es.length (t0 :: es) = .ok (some ts) ∧
      eta2direct .eta tof (t0 :: es) = .ok (t0 :: ts') ∧ ts.length = es.length ∧ ts'.length = es.length ∧
      ∀ i < es.length, ∃ t t', ts[i]? = some t ∧ ts'[i]? = some t' ∧ 0 ≤ t ∧ |t - t'| ≤ (i + 4.1) * u * tof ∧
        ((i + 2.1) * u < ((es.take i).map (1 - ·)).prod → 0 < t) := by
  refine ⟨_, _, eta2directD_eq hA hr hl, ?_, eta2direct_eq hl, etaTimesD_length _ _ _, etaTimes_length _ _, fun i hi => ?_⟩
  · unfold Num.decodeTofs
    rw [etaLoopD_eq hA hr (List.length_pos_iff.2 hl) le_rfl, List.take_length]
    rfl
  · obtain ⟨t, t', c1, c2, c3, c4, c5⟩ := etaTimesD_ok hr h (k := 0) (by simpa using hn) le_rfl h0.le h0.le le_rfl (remErr_zero tof) i hi
    refine ⟨t, t', c1, c2, c3, by simpa using c4, fun hp => c5 ?_⟩
    have hP := (prod_nonneg (es := es.take i) fun e he => h e (List.mem_of_mem_take he)).1
    refine lt_of_le_of_lt (remErr_le (mul_nonneg h0.le hP)) ?_
    have hu := u_pos
    rw [zero_add]
    calc ((i : ℝ) + 2.01) * u * tof ≤ (i + 2.1) * u * tof := mul_le_mul_of_nonneg_right (mul_le_mul_of_nonneg_right (by linarith) hu.le) h0.le
      _ < ((es.take i).map (1 - ·)).prod * tof := mul_lt_mul_of_pos_right hp h0
      _ = _ := mul_comm _ _

theorem top_gene : rn (1 - rn (1 / 1000 : ℝ)) ≤ 1 - 0.00099999 := by
  have h1 := (abs_le.1 (rn_err' (1 / 1000))).1
  have h2 := (abs_le.1 (rn_err' (1 - rn (1 / 1000)))).2
  have h3 := (abs_le.1 (rn_err' (1 / 1000))).2
  have hu := u_small
  have hu0 := u_pos
  rw [abs_of_pos (by norm_num : (0 : ℝ) < 1 / 1000)] at h1 h3
  rw [abs_of_nonneg (by linarith)] at h2
  nlinarith

theorem prod_ge {c : ℝ} (hc : 0 ≤ c) {es : List ℝ} (h : ∀ e ∈ es, e ≤ 1 - c) : c ^ es.length ≤ (es.map (1 - ·)).prod := by
  induction es with
  | nil => simp
  | cons e es ih =>
    have h1 := ih fun b hb => h b (by simp [hb])
    have h2 := h e (by simp)
    rw [List.map_cons, List.prod_cons, List.length_cons, pow_succ, mul_comm]
    exact mul_le_mul (by linarith) h1 (pow_nonneg hc _) (by linarith)

theorem prod_le {c : ℝ} {es : List ℝ} (h : ∀ e ∈ es, 1 - c ≤ e ∧ e ≤ 1) : (es.map (1 - ·)).prod ≤ c ^ es.length ∧ 0 ≤ (es.map (1 - ·)).prod := by
  induction es with
  | nil => simp
  | cons e es ih =>
    obtain ⟨h1, h3⟩ := ih fun b hb => h b (by simp [hb])
    obtain ⟨h2, h4⟩ := h e (by simp)
    rw [List.map_cons, List.prod_cons, List.length_cons, pow_succ, mul_comm (c ^ _)]
    exact ⟨mul_le_mul (by linarith) h1 h3 (by linarith), mul_nonneg (by linarith) h3⟩

/-- **C96**: with up to six legs, all times decoded from genes within the bounds of the problem (get_bounds, pykep/trajopt/_mga.py:183-186) are positive. -/
theorem C96_six_legs_partial {A : Num} (hA : A.Double) {tof t0 : ℝ} (hr : Rep tof) (h0 : 0 < tof) {es : List ℝ} (hl : es ≠ []) (hn : es.length ≤ 6)
    (h : ∀ e ∈ es, rn (1 / 1000) ≤ e ∧ e ≤ rn (1 - rn (1 / 1000))) :
    ∃ ts, A.decodeTofs .eta tof es.length (t0 :: es) = .ok (some ts) ∧ ts.length = es.length ∧ ∀ t ∈ ts, 0 < t := by
  have hg : ∀ e ∈ es, 0 < e ∧ e ≤ 1 - 0.00099999 := fun e he =>
    ⟨lt_of_lt_of_le (rn_pos' (by norm_num)) (h e he).1, (h e he).2.trans top_gene⟩
  obtain ⟨ts, ts', -, h2, -, h4, -, h6⟩ := C96_eta (t0 := t0) hA hr h0 hl (by omega) fun e he => ⟨(hg e he).1, (hg e he).2.trans (by norm_num)⟩
  refine ⟨ts, h2, h4, fun t ht => ?_⟩
  obtain ⟨i, hi, rfl⟩ := List.getElem_of_mem ht
  obtain ⟨t, t', c1, -, -, -, c5⟩ := h6 i (h4 ▸ hi)
  rw [List.getElem?_eq_getElem hi] at c1
  cases c1
  apply c5
  have h7 := prod_ge (c := 0.00099999) (by norm_num) (es := es.take i) fun e he => (hg e (List.mem_of_mem_take he)).2
  have h8 : (es.take i).length = i := by rw [List.length_take]; omega
  rw [h8] at h7
  refine lt_of_lt_of_le ?_ h7
  have : i ≤ 5 := by omega
  unfold u
  interval_cases i <;> norm_num

/-- **C96** fails with seven legs: for all total times, when six genes are between 0.9985 and 0.999 (within the bounds of the problem), the time of the seventh leg is 0. -/
theorem C96_seven_legs {A : Num} (hA : A.Double) {tof t0 : ℝ} (hr : Rep tof) (h0 : 0 < tof) {es : List ℝ} (hn : 7 ≤ es.length)
    (h : ∀ e ∈ es.take 6, 0.9985 ≤ e ∧ e ≤ 1 - 1 / 10 ^ 14) :
    ∃ ts, A.decodeTofs .eta tof es.length (t0 :: es) = .ok (some ts) ∧ ts.length = es.length ∧ ts[6]? = some 0 := by
  have hl : es ≠ [] := by rintro rfl; simp at hn
  refine ⟨etaTimesD tof 0 es, ?_, etaTimesD_length _ _ _, ?_⟩
  · unfold Num.decodeTofs
    rw [etaLoopD_eq hA hr (List.length_pos_iff.2 hl) le_rfl, List.take_length]
    rfl
  · have hu := u_small
    have hu0 := u_pos
    have g : Genes (es.take 5) := fun e he => by
      have := h e (List.mem_of_mem_take (i := 5) (by rw [List.take_take]; simpa using he))
      exact ⟨by linarith, this.2⟩
    have l5 : (es.take 5).length = 5 := by rw [List.length_take]; omega
    obtain ⟨s1, s2, s3, s4, s5⟩ := etaSumD_ok hr g (k := 0) (by rw [l5]; norm_num) le_rfl h0.le h0.le le_rfl (remErr_zero tof)
    rw [l5, zero_add] at s3
    have hp := (prod_le (c := 0.0015) (es := es.take 5) fun e he => by
      have := h e (List.mem_of_mem_take (i := 5) (by rw [List.take_take]; simpa using he))
      exact ⟨by linarith, by linarith⟩).1
    rw [l5] at hp
    have h5 : 5 < es.length := by omega
    have h6 : 6 < es.length := by omega
    have hb := h es[5] (by rw [List.mem_take_iff_getElem]; exact ⟨5, by omega, rfl⟩)
    obtain ⟨S, hS⟩ : ∃ S, S = etaSumD tof 0 (es.take 5) := ⟨_, rfl⟩
    rw [← hS] at s1 s2 s3
    obtain ⟨b, hbd⟩ : ∃ b, b = es[5] := ⟨_, rfl⟩
    rw [← hbd] at hb
    obtain ⟨P, hP⟩ : ∃ P, P = ((es.take 5).map (1 - ·)).prod := ⟨_, rfl⟩
    rw [← hP] at s3 s4 s5 hp
    obtain ⟨-, -, -, -, -, a1, a2, -⟩ := etaStep (k := 5) (by norm_num) s1 s2 s4 s5 (by linarith [hb.1]) hb.2 s3
    have hρ : tof - S ≤ 1 / 10 ^ 14 * tof := by
      have e1 := (abs_le.1 s3).2
      have e2 := remErr_le (M := tof) (k := 5) s4
      have e3 : tof * P ≤ tof * (0.0015 ^ 5) := mul_le_mul_of_nonneg_left hp h0.le
      have e4 : ((5 : ℕ) + 2.01 : ℝ) * u * tof ≤ 7.01 * (1 / 2 ^ 53) * tof := by unfold u; push_cast; linarith
      have : tof * 0.0015 ^ 5 + 7.01 * (1 / 2 ^ 53) * tof ≤ 1 / 10 ^ 14 * tof := by
        rw [mul_comm tof, ← add_mul]
        exact mul_le_mul_of_nonneg_right (by norm_num) h0.le
      linarith
    have hS6 : rn (S + rn (rn (tof - S) * b)) = tof := by
      apply rn_absorb h0 hr a1
      have e1 := (abs_le.1 a2).2
      have ρ0 : 0 ≤ tof - S := by linarith
      have e2 : (tof - S) * (1 - b) ≤ (tof - S) * 0.0015 := mul_le_mul_of_nonneg_left (by linarith [hb.1]) ρ0
      have e3 : 2.01 * u * (tof - S) * b ≤ (tof - S) * 0.0001 := by
        have : 2.01 * u * b ≤ 0.0001 := by nlinarith [hb.1, hb.2]
        calc 2.01 * u * (tof - S) * b = (tof - S) * (2.01 * u * b) := by ring
          _ ≤ _ := mul_le_mul_of_nonneg_left this ρ0
      have e4 : (tof - S) * 0.0016 ≤ u / 4 * tof := by
        calc (tof - S) * 0.0016 ≤ 1 / 10 ^ 14 * tof * 0.0016 := mul_le_mul_of_nonneg_right hρ (by norm_num)
          _ = (1 / 10 ^ 14 * 0.0016) * tof := by ring
          _ ≤ _ := mul_le_mul_of_nonneg_right (by unfold u; norm_num) h0.le
      linarith
    have e6 : etaSumD tof 0 (es.take 6) = tof := by
      rw [List.take_succ_eq_append_getElem h5, etaSumD_append, ← hS, ← hbd, etaSumD, etaSumD, hS6]
    have split : es = es.take 6 ++ es[6] :: es.drop 7 := by
      rw [← List.drop_eq_getElem_cons h6, List.take_append_drop]
    rw [split, etaTimesD_append, e6, etaTimesD, List.getElem?_append_right (by simp)]
    have l6 : (etaTimesD tof 0 (es.take 6)).length = 6 := by rw [etaTimesD_length, List.length_take]; omega
    rw [l6]
    simp [rn_zero]

/-- A leg without time of flight: the trajectory is not computed. -/
theorem fly_zero {j : ℕ → Lambert.Junk} {p : Mga} {t0 : ℝ} {T : List ℝ} {i : ℕ} (hi : i < p.nLegs) (hT : T[i]? = some 0) (d : Dvs) : (fly j p t0 T).run ≠ .ok (some d) := by
  intro h
  unfold fly at h
  simp only [run_bind_some] at h
  obtain ⟨rv, -, lps, h1, -⟩ := h
  unfold lamberts at h1
  obtain ⟨L, -, h2⟩ := (mapM_range h1).2 i hi
  simp only [run_bind_some, run_lift_some, idx_ok] at h2
  obtain ⟨a, -, b, -, t, h3, h4⟩ := h2
  rw [hT] at h3
  cases h3
  rw [Lambert.make, if_pos (by simp)] at h4
  cases h4

/-- **C96** fails with seven legs: no trajectory with these genes can be evaluated, whatever the planets, the departure and the total time. -/
theorem C96_seven_legs_raise {A : Num} (hA : A.Double) (j : ℕ → Lambert.Junk) {p : Mga} (he : p.enc = .eta) (hr : Rep p.tof) (h0 : 0 < p.tof) {t0 : ℝ} {es : List ℝ}
    (hl : p.nLegs = es.length) (hn : 7 ≤ es.length) (h : ∀ e ∈ es.take 6, 0.9985 ≤ e ∧ e ≤ 1 - 1 / 10 ^ 14) (d : Dvs) :
    (A.computeDvs j p (t0 :: es)).run ≠ .ok (some d) := by
  intro hd
  obtain ⟨ts, h1, h2, h3⟩ := C96_seven_legs (t0 := t0) hA hr h0 hn h
  unfold Num.computeDvs at hd
  rw [he, hl] at hd
  simp only [run_bind_some] at hd
  obtain ⟨T, e1, x0, -, e3⟩ := hd
  have : T = ts := by
    change A.decodeTofs .eta p.tof es.length (t0 :: es) = _ at e1
    rw [h1] at e1
    cases e1; rfl
  exact fly_zero (i := 6) (by omega) (this ▸ h3) d e3

/-- A case for seven legs: 0.999 is within the bounds. -/
example (t0 : ℝ) : ∃ ts, Num.rounded.decodeTofs .eta 7000 7 (t0 :: List.replicate 7 (999 / 1000)) = .ok (some ts) ∧ ts.length = 7 ∧ ts[6]? = some 0 := by
  have h := C96_seven_legs (t0 := t0) Num.rounded_double (tof := 7000) ⟨7000, 0, by norm_num, by norm_num⟩ (by norm_num) (es := List.replicate 7 (999 / 1000)) (by simp)
    fun e he => by
      rw [List.eq_of_mem_replicate (List.mem_of_mem_take he)]
      norm_num
  simpa using h

/-! ## The round trip of the eta encoding -/

/-- The encoded genes when the sum of the times so far is `S`. -/
noncomputable def etaGenesD (M S : ℝ) : List ℝ → List ℝ
  | [] => []
  | t :: ts => rn (t / rn (M - S)) :: etaGenesD M (rn (S + t)) ts

@[simp] theorem etaGenesD_length (M S : ℝ) (ts : List ℝ) : (etaGenesD M S ts).length = ts.length := by
  induction ts generalizing S with
  | nil => rfl
  | cons e es ih => simp [etaGenesD, ih]

theorem etaGenesD_append (a b : List ℝ) (M S : ℝ) : etaGenesD M S (a ++ b) = etaGenesD M S a ++ etaGenesD M (a.foldl (fun s t => rn (s + t)) S) b := by
  induction a generalizing S with
  | nil => simp [etaGenesD]
  | cons e a ih => simp [etaGenesD, ih]

section
variable {A : Num} (hA : A.Double)
include hA

theorem divD_ok (a : ℝ) {b : ℝ} (h : b ≠ 0) : A.div? a b = some (rn (a / b)) := by unfold Num.div?; rw [div?_ok h, hA.rd]; rfl

theorem direct2etaD_step {tof t0 : ℝ} {ts : List ℝ} (h : ∀ i < ts.length, rn (tof - A.sum (ts.take i)) ≠ 0) : ∀ k i, i + k = ts.length →
    1 ≤ i → (List.range' (i + 1) k).foldlM (fun r i => do
        let q ← A.div? ((t0 :: ts).getD i 0) (A.rd (tof - A.sum (((t0 :: ts).take i).drop 1)))
        return r.set i q) (t0 :: (etaGenesD tof 0 (ts.take i) ++ ts.drop i)) = some (t0 :: etaGenesD tof 0 ts) := by
  intro k
  induction k with
  | zero => intro i hi _; simp [show i = ts.length by omega]
  | succ k ih =>
    intro i hi h1
    have hlt : i < ts.length := by omega
    rw [List.range'_succ, List.foldlM_cons]
    have e1 : (t0 :: ts).getD (i + 1) 0 = ts[i] := by simp [List.getD_eq_getElem?_getD, hlt]
    have e2 : ((t0 :: ts).take (i + 1)).drop 1 = ts.take i := by simp
    rw [e1, e2, hA.rd, divD_ok hA _ (h i hlt)]
    simp only [Option.bind_eq_bind, Option.bind_some, Option.pure_def]
    have := ih (i + 1) (by omega) (by omega)
    rw [hA.rd] at this
    rw [← this]
    congr 1
    have hlen : (etaGenesD tof 0 (ts.take i)).length = i := by simp; omega
    have hs : A.sum (ts.take i) = (ts.take i).foldl (fun s t => rn (s + t)) 0 := by unfold Num.sum; rw [hA.rd]
    rw [List.set_cons_succ, List.set_append_right _ _ (by omega), hlen, Nat.sub_self, List.drop_eq_getElem_cons hlt,
      List.set_cons_zero, List.take_succ_eq_append_getElem hlt, etaGenesD_append, hs]
    simp [etaGenesD]

theorem direct2etaD_eq {tof t0 : ℝ} (hr : Rep tof) {ts : List ℝ} (hl : ts ≠ []) (h : ∀ i < ts.length, rn (tof - A.sum (ts.take i)) ≠ 0) :
    A.direct2eta .eta tof (t0 :: ts) = .ok (some (t0 :: etaGenesD tof 0 ts)) := by
  unfold Num.direct2eta
  have h1 : 1 ≤ ts.length := List.length_pos_iff.2 hl
  obtain ⟨t, ts, rfl⟩ : ∃ t ts', ts = t :: ts' := by
    cases ts with
    | nil => exact absurd rfl hl
    | cons t ts => exact ⟨t, ts, rfl⟩
  have e1 : idx (t0 :: t :: ts) 1 = .ok t := rfl
  have h0 : tof ≠ 0 := by have := h 0 (by simp); simpa [Num.sum, rn_rep hr] using this
  rw [if_neg (by simp), e1]
  simp only [Res.ok_bind, Res.pure_eq, divD_ok hA _ h0, Option.bind_eq_bind, Option.bind_some]
  congr 1
  rw [← direct2etaD_step hA h ((t :: ts).length - 1) 1 (by simp; omega) le_rfl]
  simp [etaGenesD, rn_rep hr]

end

theorem gene_back {R e : ℝ} (hR : 0 < R) (he : 0 < e) : |rn (rn (R * e) / R) - e| ≤ 2.01 * u * e := by
  have e1 := rn_err' (R * e)
  rw [abs_of_pos (mul_pos hR he)] at e1
  have e2 : |rn (R * e) / R - e| ≤ 1 * u * e := by
    rw [show rn (R * e) / R - e = (rn (R * e) - R * e) / R by field_simp, abs_div, abs_of_pos hR, div_le_iff₀ hR]
    calc _ ≤ _ := e1
      _ = _ := by ring
  have c : Near 1 e (rn (R * e) / R) := ⟨he.le, by norm_num, by norm_num, e2⟩
  have := (c.rn (by norm_num)).abs_le
  calc _ ≤ _ := this
    _ = _ := by ring

theorem genes_back {M : ℝ} : ∀ {es : List ℝ} (_ : ∀ e ∈ es, 0 < e) {S : ℝ} (_ : ∀ t ∈ etaTimesD M S es, 0 < t) (i : ℕ) (_ : i < es.length),
    ∃ e e', es[i]? = some e ∧ (etaGenesD M S (etaTimesD M S es))[i]? = some e' ∧ |e' - e| ≤ 2.01 * u * e := by
  intro es
  induction es with
  | nil => intro _ S _ i hi; simp at hi
  | cons e es ih =>
    intro h S ht i hi
    have he := h e (by simp)
    have hR : 0 < rn (M - S) := by
      have h1 : 0 < rn (rn (M - S) * e) := ht _ (by simp [etaTimesD])
      by_contra hc
      have : rn (rn (M - S) * e) ≤ rn 0 := rn_mono (mul_nonpos_of_nonpos_of_nonneg (not_lt.1 hc) he.le)
      rw [rn_zero] at this
      linarith
    cases i with
    | zero => exact ⟨e, _, rfl, by rw [etaTimesD, etaGenesD]; rfl, gene_back hR he⟩
    | succ i =>
      obtain ⟨e0, e', h1, h2, h3⟩ := ih (fun b hb => h b (by simp [hb])) (S := rn (S + rn (rn (M - S) * e))) (fun t h' => ht t (by simp [etaTimesD, h'])) i (by simpa using hi)
      exact ⟨e0, e', by simpa using h1, by rw [etaTimesD, etaGenesD]; simpa using h2, h3⟩

theorem left_pos {M : ℝ} : ∀ {es : List ℝ} (_ : ∀ e ∈ es, 0 < e) {S : ℝ} (_ : ∀ t ∈ etaTimesD M S es, 0 < t) (i : ℕ) (_ : i < es.length),
    0 < rn (M - ((etaTimesD M S es).take i).foldl (fun s t => rn (s + t)) S) := by
  intro es
  induction es with
  | nil => intro _ S _ i hi; simp at hi
  | cons e es ih =>
    intro h S ht i hi
    have he := h e (by simp)
    cases i with
    | zero =>
      have h1 : 0 < rn (rn (M - S) * e) := ht _ (by simp [etaTimesD])
      by_contra hc
      have : rn (rn (M - S) * e) ≤ rn 0 := rn_mono (mul_nonpos_of_nonpos_of_nonneg (by simpa using hc) he.le)
      rw [rn_zero] at this
      linarith
    | succ i =>
      have := ih (fun b hb => h b (by simp [hb])) (S := rn (S + rn (rn (M - S) * e))) (fun t h' => ht t (by simp [etaTimesD, h'])) i (by simpa using hi)
      rw [etaTimesD, List.take_succ_cons, List.foldl_cons]
      exact this

/-- **C96**: as long as the decoded times are positive, encoding them gives the genes back up to two roundings, even where the times themselves are inaccurate. -/
theorem C96_eta_roundtrip {A : Num} (hA : A.Double) {tof t0 : ℝ} (hr : Rep tof) {es : List ℝ} (hl : es ≠ []) (h : ∀ e ∈ es, 0 < e) {ts : List ℝ}
    (hd : A.eta2direct .eta tof (t0 :: es) = .ok (t0 :: ts)) (ht : ∀ t ∈ ts, 0 < t) :
    ∃ es', A.direct2eta .eta tof (t0 :: ts) = .ok (some (t0 :: es')) ∧ es'.length = es.length ∧
      ∀ i < es.length, ∃ e e', es[i]? = some e ∧ es'[i]? = some e' ∧ |e' - e| ≤ 2.01 * u * e := by
  rw [eta2directD_eq hA hr hl] at hd
  obtain rfl : etaTimesD tof 0 es = ts := by cases hd; rfl
  refine ⟨_, direct2etaD_eq hA hr (fun h0 => hl ?_) fun i hi => ?_, by simp, fun i hi => genes_back h ht i hi⟩
  · have := congrArg List.length h0
    rw [etaTimesD_length] at this
    exact List.eq_nil_of_length_eq_zero this
  · unfold Num.sum
    rw [hA.rd]
    exact (left_pos h ht i (by simpa using hi)).ne'

/-! ## The alpha encoding -/

theorem near_sum {k : ℝ} {l l' : List ℝ} (h : List.Forall₂ (Near k) l l') : ∀ (m : ℕ) {s s' : ℝ} (_ : Near (k + 1.01 * m) s s') (_ : k + 1.01 * (m + l.length) ≤ 98),
    Near (k + 1.01 * (m + l.length)) (s + l.sum) (l'.foldl (fun s t => rn (s + t)) s') := by
  induction h with
  | nil => intro m s s' hs _; simpa using hs
  | @cons a b l l' h1 h2 ih =>
    intro m s s' hs hk
    rw [List.length_cons] at hk ⊢
    push_cast at hk ⊢
    have m0 : (0 : ℝ) ≤ m := Nat.cast_nonneg m
    have l0 : (0 : ℝ) ≤ l.length := Nat.cast_nonneg _
    have step : Near (k + 1.01 * ((m + 1 : ℕ) : ℝ)) (s + a) (rn (s' + b)) := by
      have := (hs.add (h1.mono (by linarith) (by linarith))).rn (by linarith)
      exact this.mono (by push_cast; linarith) (by push_cast; linarith)
    have := ih (m + 1) step (by push_cast; linarith)
    push_cast at this
    rw [List.sum_cons, List.foldl_cons, ← add_assoc s, show (m : ℝ) + (l.length + 1) = m + 1 + l.length by ring]
    exact this

theorem foldl_neg (l : List ℝ) : ∀ s, (l.map (- ·)).foldl (fun s t => rn (s + t)) (-s) = -l.foldl (fun s t => rn (s + t)) s := by
  induction l with
  | nil => intro s; rfl
  | cons a l ih =>
    intro s
    rw [List.map_cons, List.foldl_cons, List.foldl_cons, ← neg_add, rn_neg, ih]

theorem mapM_logD {A : Num} {l : List ℝ} (h : ∀ a ∈ l, 0 < a) : l.mapM A.log? = some (l.map A.log) := by
  induction l with
  | nil => rfl
  | cons a l ih =>
    rw [List.mapM_cons, ih fun b hb => h b (List.mem_cons_of_mem _ hb)]
    simp [Num.log?, h a List.mem_cons_self]

theorem mapM_divD {A : Num} (hA : A.Double) {l : List ℝ} {s : ℝ} (h : s ≠ 0) : l.mapM (fun t => A.div? t s) = some (l.map fun t => rn (t / s)) := by
  induction l with
  | nil => rfl
  | cons a l ih =>
    rw [List.mapM_cons, ih, divD_ok hA a h]
    rfl

theorem forall2_sum {c : ℝ} {l l' : List ℝ} (h : List.Forall₂ (fun t t' => |t - t'| ≤ c * t') l l') : |l.sum - l'.sum| ≤ c * l'.sum := by
  induction h with
  | nil => simp
  | @cons a b l l' h1 h2 ih =>
    rw [List.sum_cons, List.sum_cons, show a + l.sum - (b + l'.sum) = (a - b) + (l.sum - l'.sum) by ring, mul_add]
    exact (abs_add_le _ _).trans (add_le_add h1 ih)

/-- **C96**: in double precision the alpha encoding decodes all times of flight to a few roundings each (relative to that time), for up to 80 legs; they are positive, and they
add up to the total time up to the same roundings. -/
theorem C96_alpha {A : Num} (hA : A.Double) {t0 T : ℝ} (hT : 0 < T) {al : List ℝ} (hl : al ≠ []) (hn : al.length ≤ 80) (h : ∀ a ∈ al, 0 < a ∧ a < 1) :
    ∃ ts ts', A.alpha2direct (t0 :: T :: al) = .ok (some (t0 :: ts)) ∧ A.decodeTofs .alpha T al.length (t0 :: T :: al) = .ok (some ts) ∧
      alpha2direct (t0 :: T :: al) = .ok (some (t0 :: ts')) ∧ List.Forall₂ (fun t t' => 0 < t ∧ |t - t'| ≤ (1.01 * al.length + 11) * u * t') ts ts' ∧
      |ts.sum - T| ≤ (1.01 * al.length + 11) * u * T := by
  have hpos : ∀ a ∈ al, 0 < a := fun a ha => (h a ha).1
  have hneg : ∀ a ∈ al, 0 < -Real.log a := fun a ha => neg_pos.2 (log_neg (h a ha).1 (h a ha).2)
  have hnear : ∀ a ∈ al, Near 4 (-Real.log a) (-A.log a) := fun a ha => by
    refine ⟨(hneg a ha).le, by norm_num, by norm_num, ?_⟩
    have := hA.log a (hpos a ha)
    rw [abs_of_neg (neg_pos.1 (hneg a ha))] at this
    rw [show -A.log a - -Real.log a = -(A.log a - Real.log a) by ring, abs_neg]
    exact this
  have hf : List.Forall₂ (Near 4) (al.map fun a => -Real.log a) (al.map fun a => -A.log a) := by
    rw [List.forall₂_map_left_iff, List.forall₂_map_right_iff, List.forall₂_same]
    exact hnear
  have hn' : (al.length : ℝ) ≤ 80 := by exact_mod_cast hn
  have n0 : (0 : ℝ) ≤ al.length := Nat.cast_nonneg _
  have hsum := near_sum hf 0 (s := 0) (s' := 0) ⟨le_rfl, by norm_num, by norm_num, by simp⟩ (by simp only [List.length_map]; push_cast; linarith)
  simp only [List.length_map, Nat.cast_zero, zero_add] at hsum
  obtain ⟨σ, hσ⟩ : ∃ σ, σ = (al.map fun a => -Real.log a).sum := ⟨_, rfl⟩
  obtain ⟨σ', hσ'⟩ : ∃ σ', σ' = (al.map fun a => -A.log a).foldl (fun s t => rn (s + t)) 0 := ⟨_, rfl⟩
  rw [← hσ, ← hσ'] at hsum
  have σ0 : 0 < σ := by
    rw [hσ]
    exact sum_pos' (fun b hb => by obtain ⟨a, ha, rfl⟩ := List.mem_map.1 hb; exact hneg a ha) (by simpa using hl)
  have σ0' : 0 < σ' := hsum.pos σ0
  have hS : A.sum (al.map A.log) = -σ' := by
    unfold Num.sum
    rw [hA.rd, hσ']
    have := foldl_neg (al.map fun a => -A.log a) 0
    rw [neg_zero, List.map_map] at this
    rw [← this]
    congr 1
    exact List.map_congr_left fun a _ => (neg_neg _).symm
  have hS' : (al.map Real.log).sum = -σ := by
    rw [hσ]
    clear * -
    induction al with
    | nil => simp
    | cons a al ih => simp [ih]; ring
  have hx : alpha2direct (t0 :: T :: al) = .ok (some (t0 :: (al.map Real.log).map fun t => t / -σ * T)) := by
    rw [alpha2direct_eq hpos (.inr (by rw [hS']; exact (neg_neg_of_pos σ0).ne)), hS']
    try simp [List.map_map]
  have hd : (al.map A.log).mapM (fun t => A.div? t (A.sum (al.map A.log))) = some ((al.map A.log).map fun t => rn (t / -σ')) := by
    rw [hS]; exact mapM_divD hA (neg_neg_of_pos σ0').ne
  have key : List.Forall₂ (fun t t' => 0 < t' ∧ Near (1.01 * al.length + 11) t' t) (((al.map A.log).map fun t => rn (t / -σ')).map fun a => A.rd (a * T))
      ((al.map Real.log).map fun t => t / -σ * T) := by
    rw [List.map_map, List.map_map, List.map_map, List.forall₂_map_left_iff, List.forall₂_map_right_iff, List.forall₂_same]
    intro a ha
    simp only [Function.comp_apply]
    have a1 := (hnear a ha).mul (hsum.inv σ0 (by linarith)) (by linarith)
    have a2 := ((a1.rn (by linarith)).mul (Near.exact hT.le) (by linarith)).rn (by linarith)
    rw [show Real.log a / -σ * T = -Real.log a * (1 / σ) * T by field_simp, show A.log a / -σ' = -A.log a * (1 / σ') by field_simp, hA.rd]
    exact ⟨mul_pos (mul_pos (hneg a ha) (by positivity)) hT, a2.mono (by linarith) (by linarith)⟩
  refine ⟨((al.map A.log).map fun t => rn (t / -σ')).map fun a => A.rd (a * T), _, ?_, ?_, hx, key.imp fun t t' h => ⟨h.2.pos h.1, h.2.abs_le⟩, ?_⟩
  · unfold Num.alpha2direct
    simp only [List.drop_succ_cons, List.drop_zero, mapM_logD hpos, Option.bind_eq_bind, Option.bind_some, hd]
    rfl
  · unfold Num.decodeTofs
    simp only [List.drop_succ_cons, List.drop_zero, mapM_logD hpos, Option.bind_eq_bind, Option.bind_some, hd]
    rfl
  · obtain ⟨ts', c1, -, -, c4⟩ := C52_alpha_times (t0 := t0) h hl hT
    rw [hx] at c1
    have c5 : ((al.map Real.log).map fun t => t / -σ * T) = ts' := by
      simp only [Res.ok.injEq, Option.some.injEq, List.cons.injEq, true_and] at c1
      exact c1
    rw [c5] at key
    have := forall2_sum (key.imp fun t t' h => h.2.abs_le)
    rwa [c4] at this

/-- A case for six legs: the extreme genes, with 7000 days. -/
example : ∃ ts, Num.rounded.decodeTofs .eta 7000 6 (0 :: List.replicate 6 (rn (1 - rn (1 / 1000)))) = .ok (some ts) ∧ ts.length = 6 ∧ ∀ t ∈ ts, 0 < t := by
  have h := C96_six_legs_partial (t0 := 0) Num.rounded_double (tof := 7000) ⟨7000, 0, by norm_num, by norm_num⟩ (by norm_num) (es := List.replicate 6 (rn (1 - rn (1 / 1000)))) (by simp) (by simp)
    fun e he => by
      rw [List.eq_of_mem_replicate he]
      refine ⟨rn_mono ?_, le_rfl⟩
      have := (abs_le.1 (rn_err' (1 / 1000))).2
      rw [abs_of_pos (by norm_num : (0 : ℝ) < 1 / 1000)] at this
      have := u_small
      nlinarith
  simpa using h

end Kep3.Mga
