import Verif.Lambert.Props63

/-!
# C64: the numbers of revolutions reported are those that have a transfer, when the minimum is found accurately enough
-/

namespace Kep3.Lambert
open Real V3

/-- One root for a time of flight that is not below one that is reached. -/
theorem root_of_le {l : ℝ} (hl : l ^ 2 < 1) {i : ℕ} {T x : ℝ} (h1 : -1 < x) (h2 : x < 1) (hT : tofX l x i ≤ T) :
    ∃ x', -1 < x' ∧ x' < 1 ∧ tofX l x' i = T := by
  obtain ⟨a, a1, a2, a3⟩ := tofX_left hl i T
  have hc : ContinuousOn (fun x => tofX l x i) (Set.Ioo (-1) 1) := fun x hx =>
    (hasDerivAt_tofX_lt hl hx.1 hx.2 i).continuousAt.continuousWithinAt
  obtain ⟨x', hx', e⟩ := isPreconnected_Ioo.intermediate_value (s := Set.Ioo (-1 : ℝ) 1) ⟨h1, h2⟩ ⟨a1, by linarith⟩ hc ⟨hT, a3.le⟩
  exact ⟨x', hx'.1, hx'.2, e⟩

theorem lt_tofX {l : ℝ} (hl : l ^ 2 < 1) {i : ℕ} {x : ℝ} (h1 : -1 < x) (h2 : x < 1) : i * π < tofX l x i := by
  have h := tofE_gt hl h1 h2 i
  have hp := tofE_pos hl h1 h2 i
  unfold tofX
  rw [if_pos h2]
  have hs : √(1 - x ^ 2) ≤ 1 := sqrt_le_one.2 (by nlinarith [sq_nonneg x])
  have : √(1 - x ^ 2) ^ 3 ≤ 1 := pow_le_one₀ (sqrt_nonneg _) hs
  nlinarith

/-- **C64.** Let `mu0` be the smallest time of flight with `N` revolutions, for the `N` that the solver starts from. If the Halley
iterations, when they are used, end within `delta` of it and the time of flight asked for is not within `delta` of it, then the
numbers of revolutions reported are exactly those, up to the requested maximum, that have a transfer. -/
theorem C64_nmax {j : Junk} {r0 r1 : V3 ℝ} {tof mu : ℝ} {cw : Bool} {m : ℕ} {L : Lambert}
    (h : make j r0 r1 tof mu cw m = .ok L) (hz : (cross r0 r1).z ≠ 0)
    (hH : ∀ N T0, N = min m ⌊nonDim r0 r1 tof mu / π⌋₊ → 1 ≤ N → T00 L.lam = some T0 → nonDim r0 r1 tof mu < T0 + N * π →
      ∃ Tm mu0 delta, halley L.lam N 13 0 (T0 + N * π) = .val Tm ∧ IsLeast ((fun x => tofX L.lam x N) '' Set.Ioo (-1) 1) mu0 ∧
        |Tm - mu0| ≤ delta ∧ delta < |nonDim r0 r1 tof mu - mu0|) {i : ℕ} (hi : 1 ≤ i) (him : i ≤ m) :
    i ≤ L.Nmax ↔ ∃ v0 v1, Transfer r0 r1 tof mu cw i v0 v1 := by
  obtain ⟨htof, hmu, g, hg, hs, hN, hLe⟩ := make_inv h
  obtain ⟨g', f, ct, st, rho, sg, hg', S⟩ := geom_spec cw hz
  obtain rfl : g = g' := by rw [hg] at hg'; exact Res.ok.inj hg'
  have hl := S.lam_lt
  have hlam : L.lam = g.lam := by rw [hLe]
  rw [hlam] at hH
  have hpi := pi_pos
  obtain ⟨T, hTd⟩ : ∃ T, T = nonDim r0 r1 tof mu := ⟨_, rfl⟩
  rw [← hTd] at hH hN
  obtain ⟨n, hn⟩ : ∃ n, n = min m ⌊T / π⌋₊ := ⟨_, rfl⟩
  -- what a transfer means
  have tr : (∃ v0 v1, Transfer r0 r1 tof mu cw i v0 v1) ↔ ∃ x, -1 < x ∧ x < 1 ∧ tofX g.lam x i = T := by
    constructor
    · rintro ⟨v0, v1, hv⟩
      obtain ⟨x, a, b, -, c⟩ := (transfer_iff S hg hz hmu htof i v0 v1).1 hv
      exact ⟨x, a, b.resolve_right (by omega), by rw [c, hTd]⟩
    · rintro ⟨x, a, b, c⟩
      obtain ⟨v0, v1, hv, -⟩ := orbit S hmu x
      exact ⟨v0, v1, (transfer_iff S hg hz hmu htof i v0 v1).2 ⟨x, a, .inl b, hv, by rw [c, hTd]⟩⟩
  rw [tr]
  -- a transfer needs the time of its revolutions
  have lo : (∃ x, -1 < x ∧ x < 1 ∧ tofX g.lam x i = T) → i ≤ n := by
    rintro ⟨x, a, b, rfl⟩
    rw [hn]
    refine le_min him (Nat.le_floor ?_)
    rw [le_div_iff₀ hpi]
    exact (lt_tofX hl a b).le
  have hi0 : tofX g.lam 0 i = tofX g.lam 0 0 + i * π := by
    unfold tofX; rw [if_pos one_pos, if_pos one_pos]
    unfold tofE; simp; ring
  have hT0 : 0 < T := by
    have hs' := S.s_pos
    rw [hTd]; unfold nonDim; rw [← geom_s hg]
    exact mul_pos (sqrt_pos.2 (by positivity)) htof
  have below : i < n → ∃ x, -1 < x ∧ x < 1 ∧ tofX g.lam x i = T := by
    intro hin
    refine root_of_le hl (x := 0) (by norm_num) (by norm_num) ?_
    refine (tofX_zero_lt hl i).le.trans ?_
    have h1 : (n : ℝ) ≤ T / π := by
      have : n ≤ ⌊T / π⌋₊ := by rw [hn]; exact min_le_right _ _
      exact (Nat.cast_le.2 this).trans (Nat.floor_le (by positivity))
    rw [le_div_iff₀ hpi] at h1
    have h2 : ((i : ℝ) + 1) ≤ n := by exact_mod_cast hin
    nlinarith
  unfold nmax at hN
  rw [T00_eq hl] at hN
  simp only [Option.map_some, ← hn] at hN
  by_cases hub : 2 ^ 32 ≤ T / π
  · rw [if_pos hub] at hN; cases hN
  rw [if_neg hub] at hN
  by_cases hpos : 0 < n
  · rw [if_pos hpos] at hN
    by_cases hlt : T < tofX g.lam 0 0 + n * π
    · rw [if_pos hlt] at hN
      obtain ⟨Tm, mu0, delta, e1, e2, e3, e4⟩ := hH n _ hn hpos (T00_eq hl) hlt
      rw [e1] at hN
      simp only at hN
      obtain ⟨x0, hx0, hx1⟩ := e2.1
      simp only at hx1
      by_cases hd : T < Tm
      · rw [if_pos hd] at hN
        have hNm : L.Nmax = n - 1 := by
          have := Res.ok.inj hN
          rw [← this]; omega
        constructor
        · intro hle; exact below (by omega)
        · intro hex
          have := lo hex
          by_contra hc
          obtain rfl : i = n := by omega
          obtain ⟨x, a, b, rfl⟩ := hex
          have : mu0 ≤ tofX g.lam x i := e2.2 ⟨x, ⟨a, b⟩, rfl⟩
          rw [abs_of_nonneg (by linarith)] at e4
          have := (abs_le.1 e3).2
          linarith
      · rw [if_neg hd] at hN
        have hNm : L.Nmax = n := by
          have := Res.ok.inj hN
          rw [← this]; omega
        constructor
        · intro hle
          rcases (by omega : i < n ∨ i = n) with hlt' | rfl
          · exact below hlt'
          · refine root_of_le hl hx0.1 hx0.2 ?_
            rw [hx1]
            by_contra hc
            push Not at hc hd
            rw [abs_of_neg (by linarith)] at e4
            have := (abs_le.1 e3).1
            linarith
        · intro hex; rw [hNm]; exact lo hex
    · rw [if_neg hlt] at hN
      have hNm : L.Nmax = n := by
        have := Res.ok.inj hN
        rw [← this]; omega
      constructor
      · intro hle
        rcases (by omega : i < n ∨ i = n) with hlt' | rfl
        · exact below hlt'
        · refine root_of_le hl (x := 0) (by norm_num) (by norm_num) ?_
          rw [hi0]; exact not_lt.1 hlt
      · intro hex; rw [hNm]; exact lo hex
  · rw [if_neg hpos] at hN
    have hNm : L.Nmax = n := (Res.ok.inj hN).symm
    constructor
    · intro hle; omega
    · intro hex; rw [hNm]; exact lo hex

/-- A case of `C64_nmax`: two half-periods and one revolution asked for; the Halley iterations are not used. -/
example : ∃ (r0 r1 : V3 ℝ) (tof : ℝ), (cross r0 r1).z ≠ 0 ∧ ∀ j : Junk, ∃ L, make j r0 r1 tof 1 true 1 = .ok L ∧ 1 ≤ L.Nmax ∧
    ∃ v0 v1, Transfer r0 r1 tof 1 true 1 v0 v1 := by
  obtain ⟨r0, r1, g, f, ct, st, rho, sg, hz, hg, S, hgl⟩ := geom_lam (l := -1 / 2) (by norm_num) (by norm_num)
  have hl := S.lam_lt
  have hpi := pi_pos
  have hs : 0 < semiPerimeter r0 r1 := by rw [← geom_s hg]; exact S.s_pos
  have hp : 0 < √(2 * 1 / semiPerimeter r0 r1 / semiPerimeter r0 r1 / semiPerimeter r0 r1) :=
    sqrt_pos.2 (by positivity)
  obtain ⟨tof, htof⟩ : ∃ t, nonDim r0 r1 t 1 = 2 * π := ⟨2 * π / _, by
    unfold nonDim; exact mul_div_cancel₀ _ hp.ne'⟩
  have htof0 : 0 < tof := by
    have h : 0 < nonDim r0 r1 tof 1 := by rw [htof]; positivity
    unfold nonDim at h
    exact (pos_iff_pos_of_mul_pos h).1 hp
  refine ⟨r0, r1, tof, hz, fun j => ?_⟩
  have hT0 : tofX g.lam 0 0 + π < 2 * π := by
    have h := tofX_zero_lt hl 0
    push_cast at h
    linarith
  have hn : nmax j g.lam (2 * π) 1 = .ok 1 := by
    have e : 2 * π / π = 2 := by field_simp
    unfold nmax
    rw [if_neg (by rw [e]; norm_num), e]
    simp only [Nat.floor_ofNat, T00_eq hl, Option.map_some]
    norm_num
    rw [if_neg (by linarith)]
  obtain ⟨L, hL, hN⟩ : ∃ L, make j r0 r1 tof 1 true 1 = .ok L ∧ L.Nmax = 1 := by
    refine ⟨_, by
      unfold make
      rw [if_neg (not_le.2 htof0), if_neg (not_le.2 one_pos), hg, Res.ok_bind, if_neg S.s_pos.ne']
      have hT : √(2 * 1 / g.s / g.s / g.s) * tof = 2 * π := by rw [geom_s hg]; exact htof
      simp only [hT, hn, Res.ok_bind]
      rfl, rfl⟩
  refine ⟨L, hL, by rw [hN], (C64_nmax hL hz ?_ le_rfl le_rfl).1 (by rw [hN])⟩
  rintro N T0 hN' - hT hlt
  have e : 2 * π / π = 2 := by field_simp
  rw [htof, e] at hN'
  obtain rfl : N = 1 := by rw [hN']; norm_num
  have hlam : L.lam = g.lam := by
    obtain ⟨-, -, g', hg', -, -, hLe⟩ := make_inv hL
    obtain rfl : g = g' := by rw [hg] at hg'; exact Res.ok.inj hg'
    rw [hLe]
  rw [hlam, T00_eq hl, Option.some.injEq] at hT
  rw [htof, ← hT] at hlt
  push_cast at hlt
  linarith

end Kep3.Lambert
