import Verif.HF.TimeDouble
import Verif.HF.History

/-!
# C102: the time grid of the state history of a high-fidelity leg, in double precision

`src/leg/sims_flanagan_hf.cpp:765-837` with the arithmetic of times rounded.
-/

namespace Kep3.HF

open Kep3 Fl
open Kep3.SF (usub triple)

/-- Rounded arithmetic, and a `propagate_grid` that answers on strictly monotone grids only (heyoka throws on any other grid), with a result that depends
only on how long it integrates (`φ` need not be exact). Simplified: exponents are unbounded. -/
structure RoundedGrid (E : Env ℝ) (φ : Flow) : Prop where
  add : ∀ a b, E.add a b = rn (a + b)
  div : ∀ a b, E.div a b = rn (a / b)
  ofNat : ∀ n, E.ofNat n = n
  grid : ∀ tol mu veff u t0 x ts, ts.Pairwise (· < ·) ∨ ts.Pairwise (· > ·) →
    E.grid tol mu veff u t0 x ts = some (ts.map fun t => φ mu veff u (t - t0) x)

/-- The states of segment `i` when the leg stops at the times `T k`: `gps` of them, `q = gps - 1` steps per segment. -/
noncomputable def Leg.historyAt (φ : Flow) (l : Leg ℝ) (T : ℕ → ℝ) (q i : ℕ) : List (St ℝ) :=
  let d := fun i => T ((i + 1) * q) - T (i * q)
  (List.range (q + 1)).map fun (j : ℕ) =>
    if i < l.nsegFwd then φ l.tas.mu l.tas.veff (l.thrust i) (T (i * q + j) - T (i * q)) (l.fwdFlown φ d i)
    else φ l.tas.mu l.tas.veff (l.thrust i) (-(T ((i + 1) * q) - T (i * q + (q - j)))) (l.bckFlown φ d (l.nseg - 1 - i))

theorem timeGrid_range {F : Type} (E : Env F) (s : F) (n : ℕ) :
    (timeGrid E s n).1 = (List.range (n + 1)).map (fun k : ℕ => (timeGrid E s k).2) := by
  induction n with
  | zero => rfl
  | succ n ih =>
    show (timeGrid E s n).1 ++ [(timeGrid E s (n + 1)).2] = _
    rw [ih, List.range_succ (n := n + 1), List.map_append]
    rfl

/-- Accumulating a step `s` in rounded arithmetic. -/
theorem accum_err {T : ℕ → ℝ} {s B : ℝ} {M : ℕ} (h0 : T 0 = 0) (hT : ∀ k, T (k + 1) = rn (T k + s)) (hs : 0 < s) (hM : M ≤ 2 ^ 32)
    (hB : M * s ≤ B) : ∀ k ≤ M, |T k - k * s| ≤ 1.01 * k * u * B := by
  have hu := u_pos
  have B0 : 0 ≤ B := le_trans (by positivity) hB
  intro k
  induction k with
  | zero => intro _; simp [h0]
  | succ k ih =>
    intro hk
    have e := ih (by omega)
    have e1 := rn_err' (T k + s)
    rw [← hT] at e1
    have kM : ((k : ℝ) + 1) * s ≤ B := by
      refine le_trans (mul_le_mul_of_nonneg_right ?_ hs.le) hB
      exact_mod_cast hk
    have ks : 0 ≤ ((k : ℝ) + 1) * s := by positivity
    have small : 1.01 * k * u * B ≤ 0.001 * B := by
      refine mul_le_mul_of_nonneg_right ?_ B0
      have h1 : (k : ℝ) ≤ 2 ^ 32 := by exact_mod_cast (show k ≤ 2 ^ 32 by omega)
      have h2 := mul_le_mul_of_nonneg_right h1 hu.le
      have h3 : 1.01 * ((2 : ℝ) ^ 32 * u) ≤ 0.001 := by unfold u; norm_num
      linarith
    have a : |T k + s| ≤ 1.01 * B := by
      have := abs_le.1 e
      rw [abs_le]
      constructor <;> linarith [this.1, this.2]
    have a2 := mul_le_mul_of_nonneg_left a hu.le
    have t := abs_sub_le (T (k + 1)) (T k + s) ((k + 1 : ℕ) * s)
    have r : T k + s - (k + 1 : ℕ) * s = T k - k * s := by push_cast; ring
    rw [r] at t
    push_cast at t ⊢
    linarith

theorem accum_lt {T : ℕ → ℝ} {s B : ℝ} {M : ℕ} (h0 : T 0 = 0) (hT : ∀ k, T (k + 1) = rn (T k + s)) (hs : 0 < s) (hM : M ≤ 2 ^ 32)
    (hB : M * s ≤ B) (hB' : B ≤ 1.1 * M * s) : ∀ k < M, T k < T (k + 1) := by
  have hu := u_pos
  have B0 : 0 ≤ B := le_trans (by positivity) hB
  intro k hk
  have e := accum_err h0 hT hs hM hB k hk.le
  have e1 := rn_err' (T k + s)
  rw [← hT] at e1
  have kM : ((k : ℝ) + 1) * s ≤ B := by
    refine le_trans (mul_le_mul_of_nonneg_right ?_ hs.le) hB
    exact_mod_cast hk
  have ks : 0 ≤ ((k : ℝ) + 1) * s := by positivity
  have small : 1.01 * k * u * B ≤ 0.001 * B := by
    refine mul_le_mul_of_nonneg_right ?_ B0
    have h1 : (k : ℝ) ≤ 2 ^ 32 := by exact_mod_cast (show k ≤ 2 ^ 32 by omega)
    have h2 := mul_le_mul_of_nonneg_right h1 hu.le
    have h3 : 1.01 * ((2 : ℝ) ^ 32 * u) ≤ 0.001 := by unfold u; norm_num
    linarith
  have a : |T k + s| ≤ 1.01 * B := by
    have := abs_le.1 e
    rw [abs_le]
    constructor <;> linarith [this.1, this.2]
  have a2 := mul_le_mul_of_nonneg_left a hu.le
  have b : u * (1.01 * B) < s := by
    have h1 : (M : ℝ) ≤ 2 ^ 32 := by exact_mod_cast hM
    have h2 := mul_le_mul_of_nonneg_right h1 hs.le
    have h3 := mul_le_mul_of_nonneg_left (show B ≤ 1.1 * (2 ^ 32 * s) by linarith) hu.le
    have h4 : u * (1.1 * (2 ^ 32 * s)) ≤ 0.1 * s := by
      have : u * 1.1 * 2 ^ 32 ≤ 0.1 := by unfold u; norm_num
      have := mul_le_mul_of_nonneg_right this hs.le
      linarith
    linarith
  have := (abs_le.1 e1).1
  linarith

theorem lt_of_steps {T : ℕ → ℝ} {M : ℕ} (h : ∀ k < M, T k < T (k + 1)) {a b : ℕ} (hab : a < b) (hb : b ≤ M) : T a < T b := by
  induction b with
  | zero => omega
  | succ b ih =>
    rcases Nat.lt_or_ge a b with h1 | h1
    · exact (ih h1 (by omega)).trans (h b (by omega))
    · rw [show a = b by omega]; exact h b (by omega)

section
variable {E : Env ℝ} {φ : Flow}

/-- One call of `propagate_grid` on a strictly monotone grid. -/
theorem gridSeg_rounded (hE : RoundedGrid E φ) {h : HistSt ℝ} {gps : ℕ} (hg : 2 ≤ gps) (f : ℕ → ℝ) {j : ℕ}
    (hf : (∀ a b, a < b → b < gps → f a < f b) ∨ (∀ a b, a < b → b < gps → f b < f a)) (hj : j < h.out.length) :
    gridSeg E ((List.range gps).map f) j h = (.ok (),
      { ta := { h.ta with time := f (gps - 1), state := φ h.ta.mu h.ta.veff h.ta.u (f (gps - 1) - f 0) h.ta.state },
        out := h.out.set j (some ((List.range gps).map fun k => φ h.ta.mu h.ta.veff h.ta.u (f k - f 0) h.ta.state)) }) := by
  obtain ⟨n, rfl⟩ : ∃ n, gps = n + 1 := ⟨gps - 1, by omega⟩
  have h1 : ((List.range (n + 1)).map f).head? = some (f 0) := by
    rw [List.range_succ_eq_map]; rfl
  have h2 : ∀ {β : Type} (g : ℕ → β), ((List.range (n + 1)).map g).getLast? = some (g n) := by
    intro β g; rw [List.range_succ, List.map_append]; simp
  have hm : ((List.range (n + 1)).map f).Pairwise (· < ·) ∨ ((List.range (n + 1)).map f).Pairwise (· > ·) := by
    rw [List.pairwise_iff_getElem, List.pairwise_iff_getElem]
    refine hf.imp (fun hf i k hi hk hik => ?_) (fun hf i k hi hk hik => ?_)
    · simp only [List.length_map, List.length_range] at hk
      simpa using hf i k hik hk
    · simp only [List.length_map, List.length_range] at hk
      simpa using hf i k hik hk
  unfold gridSeg
  simp only [h1, h2, hE.grid _ _ _ _ _ _ _ hm, List.map_map]
  unfold setAt
  simp only [if_pos hj, Nat.add_sub_cancel, Function.comp_def]

/-- **C102**: with the arithmetic of times rounded, `get_state_history` of a leg of at least two segments hands strictly monotone grids to the integrator, so that it succeeds,
and returns for each segment the requested states at times that start at zero, increase strictly, are shared between a segment and the next, and lie within `1.1 k + 3` units of roundoff of
the time of flight from the `k`-th of the equally spaced times. -/
theorem C102_history (hE : RoundedGrid E φ) (l : Leg ℝ) (gps : ℕ) (h0 : 0 < l.tof)
    (hn : 2 ≤ l.nseg) (hg : 2 ≤ gps) (hfit : gps * l.nseg < 2 ^ 32) (hfit3 : 3 * l.nseg < 2 ^ 32)
    (hsum : l.nsegFwd + l.nsegBck = l.nseg) (hthr : l.thrusts.length = 3 * l.nseg) :
    ∃ T : ℕ → ℝ, T 0 = 0 ∧ (∀ a b, a < b → b ≤ l.nseg * (gps - 1) → T a < T b) ∧
      (∀ k ≤ l.nseg * (gps - 1), |T k - k * (l.tof / (l.nseg * (gps - 1)))| ≤ (1.1 * k + 3) * 2⁻¹ ^ 53 * l.tof) ∧
      (stateHistory E gps l).1 = .ok ((List.range l.nseg).map fun i => some (l.historyAt φ T (gps - 1) i)) := by
  have hu' : (2⁻¹ : ℝ) ^ 53 = u := by unfold u; norm_num
  rw [hu']
  have hu := u_pos
  have hus := u_small
  have n0 : (0 : ℝ) < l.nseg := by exact_mod_cast (show 0 < l.nseg by omega)
  have hg1 : usub gps 1 = gps - 1 := by
    have : gps ≤ gps * l.nseg := Nat.le_mul_of_pos_right _ (by omega)
    exact SF.usub_le (by omega) (by omega)
  have hgr : ((gps - 1 : ℕ) : ℝ) = (gps : ℝ) - 1 := by rw [Nat.cast_sub (by omega)]; simp
  have g0 : (0 : ℝ) < (gps : ℝ) - 1 := by
    rw [← hgr]; exact_mod_cast (show 0 < gps - 1 by omega)
  obtain ⟨q, rfl⟩ : ∃ q, gps = q + 1 := ⟨gps - 1, by omega⟩
  have hc : ((q + 1 : ℕ) : ℝ) - 1 = q := by push_cast; ring
  rw [hc] at g0 ⊢
  rw [Nat.add_sub_cancel] at hg1 ⊢
  set x := l.tof / (l.nseg * q) with hx
  set s := histStep E l (q + 1) with hsdef
  have hstep : s = rn (rn (l.tof / l.nseg) / q) := by
    rw [hsdef]
    unfold histStep Leg.dt
    rw [hE.div, hE.div, hE.ofNat, hE.ofNat, hg1]
  have x0 : 0 < x := by positivity
  have hsx : |s - x| ≤ 2.01 * u * x := by
    have e1 := rn_err' (l.tof / l.nseg)
    rw [abs_of_pos (div_pos h0 n0)] at e1
    have e2 : |rn (l.tof / l.nseg) / q - x| ≤ u * x := by
      have : rn (l.tof / l.nseg) / q - x = (rn (l.tof / l.nseg) - l.tof / l.nseg) / q := by
        rw [hx]; field_simp
      rw [this, abs_div, abs_of_pos g0, div_le_iff₀ g0]
      have : u * x * q = u * (l.tof / l.nseg) := by rw [hx]; field_simp
      linarith
    have e3 := rn_err' (rn (l.tof / l.nseg) / q)
    rw [← hstep] at e3
    have ux : u * x ≤ 0.001 * x := mul_le_mul_of_nonneg_right (by linarith) x0.le
    have e4 : |rn (l.tof / l.nseg) / q| ≤ 1.01 * x := by
      have := abs_le.1 e2
      rw [abs_le]; constructor <;> linarith [this.1, this.2]
    have e5 := mul_le_mul_of_nonneg_left e4 hu.le
    have t := abs_sub_le s (rn (l.tof / l.nseg) / q) x
    linarith
  have ux : u * x ≤ 0.001 * x := mul_le_mul_of_nonneg_right (by linarith) x0.le
  have hsl := (abs_le.1 hsx).1
  have hsu := (abs_le.1 hsx).2
  have s0 : 0 < s := by linarith
  set M := l.nseg * q with hMdef
  have M0 : (0 : ℝ) ≤ M := Nat.cast_nonneg M
  have Mx : (M : ℝ) * x = l.tof := by rw [hx, hMdef]; push_cast; field_simp
  have hMfit : M ≤ 2 ^ 32 := by
    have : (q + 1) * l.nseg = l.nseg * q + l.nseg := by ring
    omega
  have hMs : M * s ≤ 1.01 * l.tof := by
    have := mul_le_mul_of_nonneg_left (show s ≤ 1.01 * x by linarith) M0
    linarith
  have hMs' : 1.01 * l.tof ≤ 1.1 * M * s := by
    have := mul_le_mul_of_nonneg_left (show 0.99 * x ≤ s by linarith) M0
    linarith
  set T : ℕ → ℝ := fun k => (timeGrid E s k).2 with hT
  have T0 : T 0 = 0 := by show E.ofNat 0 = 0; rw [hE.ofNat]; simp
  have Ts : ∀ k, T (k + 1) = rn (T k + s) := fun k => hE.add _ _
  have Tlt : ∀ a b, a < b → b ≤ M → T a < T b := fun a b hab hb =>
    lt_of_steps (accum_lt T0 Ts s0 hMfit hMs hMs') hab hb
  have Terr : ∀ k ≤ M, |T k - k * x| ≤ (1.1 * k + 3) * u * l.tof := by
    intro k hk
    have e := accum_err T0 Ts s0 hMfit hMs k hk
    have k0 : (0 : ℝ) ≤ k := Nat.cast_nonneg k
    have kM : (k : ℝ) ≤ M := by exact_mod_cast hk
    have e2 : |(k : ℝ) * s - k * x| ≤ 2.01 * u * l.tof := by
      rw [← mul_sub, abs_mul, abs_of_nonneg k0]
      have h1 := mul_le_mul_of_nonneg_left hsx k0
      have h2 := mul_le_mul_of_nonneg_right kM (show 0 ≤ 2.01 * u * x by positivity)
      have h3 : (M : ℝ) * (2.01 * u * x) = 2.01 * u * l.tof := by rw [← Mx]; ring
      linarith
    have t := abs_sub_le (T k) (k * s) (k * x)
    have p1 : 0 ≤ u * l.tof := by positivity
    have p2 : 0 ≤ (k : ℝ) * u * l.tof := mul_nonneg (mul_nonneg k0 hu.le) h0.le
    linarith
  refine ⟨T, T0, Tlt, Terr, ?_⟩
  set d : ℕ → ℝ := fun i => T ((i + 1) * q) - T (i * q) with hd
  have hN : usub ((q + 1) * l.nseg % 2 ^ 32) 2 = (q + 1) * l.nseg - 2 := by
    rw [Nat.mod_eq_of_lt hfit]
    have : 2 * 2 ≤ (q + 1) * l.nseg := Nat.mul_le_mul hg hn
    exact SF.usub_le hfit (by omega)
  set N := (q + 1) * l.nseg - 2 with hNdef
  have hgrid : (timeGrid E s N).1 = (List.range (N + 1)).map T := timeGrid_range E s N
  have hNs : M + 1 ≤ N + 1 := by
    have : (q + 1) * l.nseg = l.nseg * q + l.nseg := by ring
    omega
  have idx : ∀ i < l.nseg, i * q % 2 ^ 32 = i * q ∧
      ((i + 1) * q + 1) % 2 ^ 32 = i * q + (q + 1) ∧ i * q + (q + 1) ≤ N + 1 ∧ i * q + q ≤ M := by
    intro i hi
    have h1 : (i + 1) * q ≤ l.nseg * q := Nat.mul_le_mul_right _ hi
    have h2 : (i + 1) * q = i * q + q := by ring
    have h4 : N + 1 < 2 ^ 32 := by omega
    refine ⟨Nat.mod_eq_of_lt (by omega), ?_, by omega, by omega⟩
    rw [Nat.mod_eq_of_lt (by omega)]; omega
  have slc : ∀ i < l.nseg, slice (timeGrid E s N).1 (i * q % 2 ^ 32) (((i + 1) * q + 1) % 2 ^ 32) (q + 1) =
      .ok ((List.range (q + 1)).map fun j : ℕ => T (i * q + j)) := by
    intro i hi
    obtain ⟨h1, h2, h3, -⟩ := idx i hi
    rw [h1, h2, hgrid, slice_map h3 le_rfl]
  rw [stateHistory_fst]
  unfold historyOn
  rw [← hsdef]
  simp only [hN]
  let Ifwd : ℕ → HistSt ℝ → Prop := fun i h => h.ta.Same l.tas ∧ h.ta.state = l.fwdFlown φ d i ∧
    h.out = (List.range l.nseg).map fun k => if k < i then some (l.historyAt φ T q k) else none
  obtain ⟨h1, e1, i1⟩ := forLoop_inv (histFwd E l (timeGrid E s N).1 (q + 1)) l.nsegFwd
    { ta := { l.tas with time := E.ofNat 0, state := l.rvms }, out := List.replicate l.nseg none } Ifwd
    (by
      intro i hi h ⟨hsame, hst, hout⟩
      have hin : i < l.nseg := by omega
      have hiM := (idx i hin).2.2.2
      have hth := thrustAt_thrust (l := l) (i := i) (by omega)
      have hrun : histFwd E l (timeGrid E s N).1 (q + 1) i h =
          gridSeg E ((List.range (q + 1)).map fun j : ℕ => T (i * q + j)) i
            { h with ta := { h.ta with u := l.thrust i } } := by
        unfold histFwd
        rw [Nat.mod_eq_of_lt (by omega), hth, hg1, slc i hin]
        rfl
      rw [gridSeg_rounded hE hg _ (Or.inl fun a b hab hb => Tlt _ _ (by omega) (by omega)) (by simp [hout, hin])] at hrun
      refine ⟨_, hrun, hsame, ?_, ?_⟩
      · show φ h.ta.mu h.ta.veff (l.thrust i) (T (i * q + q) - T (i * q + 0)) h.ta.state =
          φ l.tas.mu l.tas.veff (l.thrust i) (d i) (l.fwdFlown φ d i)
        rw [hsame.2.1, hsame.2.2, hst, add_zero]
        simp only [hd, Nat.succ_mul]
      · show h.out.set i _ = _
        rw [hout]
        apply List.ext_getElem
        · simp
        · intro k k1 k2
          simp only [List.length_map, List.length_range, List.length_set] at k1 k2
          rw [List.getElem_set]
          simp only [List.getElem_map, List.getElem_range]
          by_cases hk : i = k
          · subst hk
            rw [if_pos rfl, if_pos (by omega)]
            refine congrArg some ?_
            unfold Leg.historyAt
            refine List.map_congr_left fun j _ => ?_
            rw [if_pos hi]
            show φ h.ta.mu h.ta.veff (l.thrust i) _ h.ta.state = _
            rw [hsame.2.1, hsame.2.2, hst, add_zero]
          · rw [if_neg hk]
            by_cases hk2 : k < i
            · rw [if_pos hk2, if_pos (by omega)]
            · rw [if_neg hk2, if_neg (by omega)])
    ⟨⟨rfl, rfl, rfl⟩, rfl, by
      apply List.ext_getElem
      · simp
      · intro k k1 k2; simp⟩
  let Ibck : ℕ → HistSt ℝ → Prop := fun i h => h.ta.Same l.tas ∧ h.ta.state = l.bckFlown φ d i ∧
    h.out = (List.range l.nseg).map fun k =>
      if k < l.nsegFwd ∨ l.nseg - i ≤ k then some (l.historyAt φ T q k) else none
  obtain ⟨h2, e2, i2⟩ := forLoop_inv (histBck E l (timeGrid E s N).1 (q + 1)) l.nsegBck
    { h1 with ta := { h1.ta with time := l.tof, state := l.rvmf } } Ibck
    (by
      intro i hi h ⟨hsame, hst, hout⟩
      have hu1 : usub l.nseg (i + 1) = l.nseg - (i + 1) := SF.usub_le (by omega) (by omega)
      have hu0 : usub l.nseg i = l.nseg - (i + 1) + 1 := by rw [SF.usub_le (by omega) (by omega)]; omega
      have hu2 : usub (usub l.nseg 1) i = l.nseg - (i + 1) := by
        rw [SF.usub_le (n := l.nseg) (by omega) (by omega), SF.usub_le (by omega) (by omega)]; omega
      set p := l.nseg - (i + 1) with hp
      have hpM := (idx p (by omega)).2.2.2
      have hth := thrustAt_thrust (l := l) (i := p) (by omega)
      have hrev : ((List.range (q + 1)).map fun j : ℕ => T (p * q + j)).reverse =
          (List.range (q + 1)).map fun j : ℕ => T (p * q + (q - j)) := by
        apply List.ext_getElem
        · simp
        · intro k k1 k2
          simp only [List.length_map, List.length_range] at k2
          simp only [List.getElem_reverse, List.getElem_map, List.getElem_range, List.length_map, List.length_range]
          congr 1
      have hrun : histBck E l (timeGrid E s N).1 (q + 1) i h =
          gridSeg E ((List.range (q + 1)).map fun j : ℕ => T (p * q + (q - j))) p
            { h with ta := { h.ta with u := l.thrust p } } := by
        unfold histBck
        rw [hu1, hu0, hu2, Nat.mod_eq_of_lt (by omega), hth, hg1, slc p (by omega), ← hrev]
        rfl
      rw [gridSeg_rounded hE hg _ (Or.inr fun a b hab hb => Tlt _ _ (by omega) (by omega)) (by simp [hout]; omega)] at hrun
      have ep : T (p * q + q) = T ((p + 1) * q) := by rw [Nat.succ_mul]
      refine ⟨_, hrun, hsame, ?_, ?_⟩
      · show φ h.ta.mu h.ta.veff (l.thrust p) (T (p * q + (q - q)) - T (p * q + (q - 0))) h.ta.state =
          φ l.tas.mu l.tas.veff (l.thrust (l.nseg - 1 - i)) (-d (l.nseg - 1 - i)) (l.bckFlown φ d i)
        rw [hsame.2.1, hsame.2.2, hst, show l.nseg - 1 - i = p by omega, Nat.sub_self, Nat.sub_zero, add_zero, ep]
        simp only [hd, neg_sub]
      · show h.out.set p _ = _
        rw [hout]
        apply List.ext_getElem
        · simp
        · intro k k1 k2
          simp only [List.length_map, List.length_range, List.length_set] at k1 k2
          rw [List.getElem_set]
          simp only [List.getElem_map, List.getElem_range]
          by_cases hk : p = k
          · subst hk
            rw [if_pos rfl, if_pos (by omega)]
            refine congrArg some ?_
            unfold Leg.historyAt
            refine List.map_congr_left fun j hj => ?_
            rw [if_neg (by omega)]
            show φ h.ta.mu h.ta.veff (l.thrust p) (T (p * q + (q - j)) - T (p * q + (q - 0))) h.ta.state = _
            rw [hsame.2.1, hsame.2.2, hst, show l.nseg - 1 - p = i by omega, Nat.sub_zero, ep, neg_sub]
          · rw [if_neg hk]
            by_cases hk2 : k < l.nsegFwd ∨ l.nseg - i ≤ k
            · rw [if_pos hk2, if_pos (by omega)]
            · rw [if_neg hk2, if_neg (by omega)])
    ⟨i1.1, rfl, by
      show h1.out = _
      rw [i1.2.2]
      refine List.map_congr_left fun k hk => ?_
      rw [List.mem_range] at hk
      by_cases hk2 : k < l.nsegFwd
      · rw [if_pos hk2, if_pos (Or.inl hk2)]
      · rw [if_neg hk2, if_neg (by omega)]⟩
  simp only [Mut.assign_bind_run]
  rw [Mut.bind_run, e1]
  simp only [Mut.assign_bind_run]
  rw [e2]
  show Res.ok h2.out = _
  rw [i2.2.2]
  refine congrArg Res.ok (List.map_congr_left fun k hk => ?_)
  rw [List.mem_range] at hk
  rw [if_pos (by omega)]

end

open Classical in
/-- Rounded arithmetic and motion along straight lines, refusing grids that are not strictly monotone. -/
noncomputable def gridD : Env ℝ :=
  { driftD with
    grid := fun _ _ _ _ t0 x ts => if ts.Pairwise (· < ·) ∨ ts.Pairwise (· > ·) then
      some (ts.map fun t => ⟨⟨x.rv.r + (t - t0) • x.rv.v, x.rv.v⟩, x.m⟩) else none }

theorem gridD_rounded : RoundedGrid gridD (fun _ _ _ t x => ⟨⟨x.rv.r + t • x.rv.v, x.rv.v⟩, x.m⟩) where
  add _ _ := rfl
  div _ _ := rfl
  ofNat _ := rfl
  grid _ _ _ _ _ _ _ h := if_pos h

/-- Two segments in a time of flight of 0.1, three states each. -/
example (s f : St ℝ) (ta : Integ ℝ) :
    let l : Leg ℝ := ⟨s, [1, 0, 0, 0, 1, 0], [1, 0, 0, 0, 1, 0], f, 1 / 10, 1, 1, 1, 1 / 2, 1, 2, 1, 1, ta, ta⟩
    ∃ T : ℕ → ℝ, T 0 = 0 ∧ T 0 < T 1 ∧ T 1 < T 2 ∧ T 2 < T 3 ∧ T 3 < T 4 ∧ |T 3 - 3 / 40| ≤ 1 / 2 ^ 53 ∧
      (stateHistory gridD 3 l).1 = .ok
        [some [⟨⟨s.rv.r + (T 0 - T 0) • s.rv.v, s.rv.v⟩, s.m⟩, ⟨⟨s.rv.r + (T 1 - T 0) • s.rv.v, s.rv.v⟩, s.m⟩,
           ⟨⟨s.rv.r + (T 2 - T 0) • s.rv.v, s.rv.v⟩, s.m⟩],
         some [⟨⟨f.rv.r + (-(T 4 - T 4)) • f.rv.v, f.rv.v⟩, f.m⟩, ⟨⟨f.rv.r + (-(T 4 - T 3)) • f.rv.v, f.rv.v⟩, f.m⟩,
           ⟨⟨f.rv.r + (-(T 4 - T 2)) • f.rv.v, f.rv.v⟩, f.m⟩]] := by
  intro l
  obtain ⟨T, h1, h2, h3, h4⟩ := C102_history gridD_rounded l 3 (by show (0 : ℝ) < 1 / 10; norm_num) (by show 2 ≤ 2; decide)
    (by decide) (by show 3 * 2 < 2 ^ 32; decide) (by show 3 * 2 < 2 ^ 32; decide) rfl rfl
  have hM : l.nseg * (3 - 1) = 4 := rfl
  rw [hM] at h2 h3
  refine ⟨T, h1, h2 0 1 (by decide) (by decide), h2 1 2 (by decide) (by decide), h2 2 3 (by decide) (by decide), h2 3 4 (by decide) (by decide), ?_, h4⟩
  have := h3 3 (by decide)
  norm_num [l] at this ⊢
  linarith

end Kep3.HF
