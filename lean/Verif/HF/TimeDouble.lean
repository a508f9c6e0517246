import Verif.HF.Grad
import Verif.FloatErr
import Mathlib.Algebra.BigOperators.Intervals

/-!
# C102: the times at which the integrators of a high-fidelity leg stop, in double precision

`src/leg/sims_flanagan_hf.cpp:401-451` with the arithmetic of times rounded.
-/

namespace Kep3.HF

open Kep3 Fl
open Kep3.SF (usub triple)

/-- Rounded arithmetic, and an integrator whose result depends only on how long it integrates (`φ` need not be exact). Simplified: exponents are unbounded. -/
structure RoundedFlow (E : Env ℝ) (φ : Flow) : Prop where
  sub : ∀ a b, E.sub a b = rn (a - b)
  mul : ∀ a b, E.mul a b = rn (a * b)
  div : ∀ a b, E.div a b = rn (a / b)
  ofNat : ∀ n, E.ofNat n = n
  prop : ∀ tol mu veff u t0 x t1, E.prop tol mu veff u t0 x t1 = some (φ mu veff u (t1 - t0) x)

/-- The state reached from the initial state through `i` segments of durations `d`. -/
noncomputable def Leg.fwdFlown (φ : Flow) (l : Leg ℝ) (d : ℕ → ℝ) : ℕ → St ℝ
  | 0 => l.rvms
  | i + 1 => φ l.tas.mu l.tas.veff (l.thrust i) (d i) (l.fwdFlown φ d i)

/-- The state reached backwards from the final state through the last `k` segments of durations `d`. -/
noncomputable def Leg.bckFlown (φ : Flow) (l : Leg ℝ) (d : ℕ → ℝ) : ℕ → St ℝ
  | 0 => l.rvmf
  | k + 1 => φ l.tas.mu l.tas.veff (l.thrust (l.nseg - 1 - k)) (-d (l.nseg - 1 - k)) (l.bckFlown φ d k)

/-- The `k`-th stop going forward. -/
noncomputable def fstop (tof : ℝ) (n k : ℕ) : ℝ := rn (k * rn (tof / n))
/-- The `k`-th stop going backwards. -/
noncomputable def bstop (tof : ℝ) (n k : ℕ) : ℝ := rn (tof - rn (k * rn (tof / n)))

theorem fstop_err {tof : ℝ} {n k : ℕ} (h0 : 0 < tof) (hn : 0 < n) (hk : k ≤ n) : |fstop tof n k - k * (tof / n)| ≤ 2.01 * u * tof := by
  have hu := u_pos
  have hus := u_small
  have n0 : (0 : ℝ) < n := by exact_mod_cast hn
  have kn : (k : ℝ) ≤ n := by exact_mod_cast hk
  have k0 : (0 : ℝ) ≤ k := Nat.cast_nonneg k
  have q : 0 < tof / n := by positivity
  have kq : k * (tof / n) ≤ tof := by
    have := mul_le_mul_of_nonneg_right kn q.le
    rwa [mul_div_cancel₀ _ n0.ne'] at this
  have e1 := rn_err' (tof / n)
  rw [abs_of_pos q] at e1
  have e2 : |k * rn (tof / n) - k * (tof / n)| ≤ u * tof := by
    rw [← mul_sub, abs_mul, abs_of_nonneg k0]
    have := mul_le_mul_of_nonneg_left e1 k0
    have := mul_le_mul_of_nonneg_left kq hu.le
    linarith
  have e3 := rn_err' (k * rn (tof / n))
  have e4 : |k * rn (tof / n)| ≤ 1.01 * tof := by
    have t := abs_add_le (k * rn (tof / n) - k * (tof / n)) (k * (tof / n))
    rw [sub_add_cancel, abs_of_nonneg (mul_nonneg k0 q.le)] at t
    have : u * tof ≤ 0.01 * tof := mul_le_mul_of_nonneg_right (by linarith) h0.le
    linarith
  have e5 := mul_le_mul_of_nonneg_left e4 hu.le
  have t := abs_sub_le (rn (k * rn (tof / n))) (k * rn (tof / n)) (k * (tof / n))
  unfold fstop
  linarith

theorem bstop_err {tof : ℝ} {n k : ℕ} (h0 : 0 < tof) (hn : 0 < n) (hk : k ≤ n) : |bstop tof n k - (tof - k * (tof / n))| ≤ 3.1 * u * tof := by
  have hu := u_pos
  have hus := u_small
  have e := fstop_err h0 hn hk
  have n0 : (0 : ℝ) < n := by exact_mod_cast hn
  have kn : (k : ℝ) ≤ n := by exact_mod_cast hk
  have q : 0 < tof / n := by positivity
  have kq : k * (tof / n) ≤ tof := by
    have := mul_le_mul_of_nonneg_right kn q.le
    rwa [mul_div_cancel₀ _ n0.ne'] at this
  have kq0 : 0 ≤ k * (tof / n) := by positivity
  change |bstop tof n k - _| ≤ _
  have hb : bstop tof n k = rn (tof - fstop tof n k) := rfl
  rw [hb]
  have e3 := rn_err' (tof - fstop tof n k)
  have ut : u * tof ≤ 0.001 * tof := mul_le_mul_of_nonneg_right (by linarith) h0.le
  have e4 : |tof - fstop tof n k| ≤ 1.01 * tof := by
    rw [abs_le] at e ⊢
    constructor <;> linarith [e.1, e.2]
  have e5 := mul_le_mul_of_nonneg_left e4 hu.le
  have t := abs_sub_le (rn (tof - fstop tof n k)) (tof - fstop tof n k) (tof - k * (tof / n))
  rw [show tof - fstop tof n k - (tof - k * (tof / n)) = -(fstop tof n k - k * (tof / n)) by ring, abs_neg] at t
  have : 0 ≤ u * tof := by positivity
  linarith

/-- **C102**: with the arithmetic of times rounded, the mismatch of a high-fidelity leg is that of a leg whose segments, each flown once with its own thrust, have durations that are
positive, equal to the time of flight divided by the number of segments up to 7 units of roundoff of the time of flight, and add up to the time of flight up to 6 units. -/
theorem C102_segments {E : Env ℝ} {φ : Flow} (hE : RoundedFlow E φ) {l : Leg ℝ} (hl : l.Sized) (h0 : 0 < l.tof) (hrep : Rep l.tof) :
    ∃ d : ℕ → ℝ, (∀ i < l.nseg, 0 < d i ∧ |d i - l.tof / l.nseg| ≤ 7 * 2⁻¹ ^ 53 * l.tof) ∧
      |∑ i ∈ Finset.range l.nseg, d i - l.tof| ≤ 6 * 2⁻¹ ^ 53 * l.tof ∧
      (computeMismatch E l).1 = .ok (St.subWith E (l.fwdFlown φ d l.nsegFwd) (l.bckFlown φ d l.nsegBck)) := by
  have hu' : (2⁻¹ : ℝ) ^ 53 = u := by unfold u; norm_num
  rw [hu']
  have hu := u_pos
  obtain ⟨hsum, hpos, hfit, hthr, -⟩ := hl
  set n := l.nseg with hn
  set T := l.tof with hT
  have n0 : (0 : ℝ) < n := by exact_mod_cast hpos
  have uT : 0 < u * T := by positivity
  have small : 7 * u * T < T / n := by
    rw [lt_div_iff₀ n0]
    have h1 : (n : ℝ) ≤ 2 ^ 32 := by exact_mod_cast (show n ≤ 2 ^ 32 by omega)
    have h2 := mul_le_mul_of_nonneg_left h1 (show 0 ≤ 7 * u * T by positivity)
    have h3 : 7 * u * 2 ^ 32 < 1 := by unfold u; norm_num
    have h4 := mul_lt_mul_of_pos_right h3 h0
    linarith
  set t := fstop T n with ht
  set s := bstop T n with hs
  have t0 : t 0 = 0 := by simp [ht, fstop, rn_zero]
  have s0 : s 0 = T := by simp [hs, bstop, rn_zero, rn_rep hrep]
  set d : ℕ → ℝ := fun i => if i < l.nsegFwd then t (i + 1) - t i else s (n - 1 - i) - s (n - 1 - i + 1) with hd
  have dt : l.dt E = rn (T / n) := by unfold Leg.dt; rw [hE.div, hE.ofNat]
  refine ⟨d, ?_, ?_, ?_⟩
  · intro i hi
    have key : |d i - T / n| ≤ 7 * u * T := by
      by_cases hf : i < l.nsegFwd
      · simp only [hd, if_pos hf]
        have a := abs_le.1 (fstop_err h0 hpos (show i + 1 ≤ n by omega))
        have b := abs_le.1 (fstop_err h0 hpos (show i ≤ n by omega))
        push_cast at a
        rw [abs_le]
        constructor <;> linarith [a.1, a.2, b.1, b.2]
      · simp only [hd, if_neg hf]
        have a := abs_le.1 (bstop_err h0 hpos (show n - 1 - i + 1 ≤ n by omega))
        have b := abs_le.1 (bstop_err h0 hpos (show n - 1 - i ≤ n by omega))
        push_cast at a
        rw [abs_le]
        constructor <;> linarith [a.1, a.2, b.1, b.2]
    exact ⟨by have := (abs_le.1 key).1; linarith, key⟩
  · have e : ∑ i ∈ Finset.range n, d i = t l.nsegFwd + (T - s l.nsegBck) := by
      rw [← hsum, Finset.sum_range_add]
      congr 1
      · rw [Finset.sum_congr rfl (g := fun i => t (i + 1) - t i) (fun i hi => by simp only [hd, if_pos (Finset.mem_range.1 hi)]), Finset.sum_range_sub, t0, sub_zero]
      · rw [Finset.sum_congr rfl (g := fun i => s (l.nsegBck - 1 - i) - s (l.nsegBck - 1 - i + 1)) (fun i hi => by
          have := Finset.mem_range.1 hi
          simp only [hd]
          rw [if_neg (by omega), show n - 1 - (l.nsegFwd + i) = l.nsegBck - 1 - i by omega])]
        rw [Finset.sum_range_reflect (fun i => s i - s (i + 1)), Finset.sum_range_sub', s0]
    rw [e]
    have a := abs_le.1 (fstop_err h0 hpos (show l.nsegFwd ≤ n by omega))
    have b := abs_le.1 (bstop_err h0 hpos (show l.nsegBck ≤ n by omega))
    have c : (l.nsegFwd : ℝ) * (T / n) + l.nsegBck * (T / n) = T := by
      rw [← add_mul, ← Nat.cast_add, hsum, mul_div_cancel₀ _ n0.ne']
    rw [abs_le]
    constructor <;> linarith [a.1, a.2, b.1, b.2]
  · show (mismatchOn E l l.tas).1 = _
    unfold mismatchOn
    obtain ⟨a1, e1, ⟨s1, t1, x1⟩⟩ := forLoop_inv (fwdSeg E l) l.nsegFwd
      { l.tas with time := E.ofNat 0, state := l.rvms }
      (fun i ta => ta.Same l.tas ∧ ta.time = t i ∧ ta.state = l.fwdFlown φ d i)
      (by
        intro i hi ta ⟨hs, ht, hx⟩
        have hth := thrustAt_thrust (l := l) (i := i) (by omega)
        have hrun : fwdSeg E l i ta = until_ E (E.mul (E.ofNat (i + 1)) (l.dt E)) { ta with u := l.thrust i } := by
          unfold fwdSeg
          rw [Nat.mod_eq_of_lt (by omega), hth]
          rfl
        unfold until_ at hrun
        simp only [hE.prop, hE.mul, hE.ofNat, dt] at hrun
        refine ⟨_, hrun, hs, rfl, ?_⟩
        show φ ta.mu ta.veff (l.thrust i) _ ta.state = φ l.tas.mu l.tas.veff (l.thrust i) (d i) (l.fwdFlown φ d i)
        rw [hs.2.1, hs.2.2, hx, ht]
        simp only [hd, if_pos hi]
        rfl)
      ⟨⟨rfl, rfl, rfl⟩, by simp [hE.ofNat, t0], rfl⟩
    obtain ⟨a2, e2, ⟨s2, t2, x2⟩⟩ := forLoop_inv (bckSeg E l) l.nsegBck
      { a1 with time := l.tof, state := l.rvmf }
      (fun i ta => ta.Same l.tas ∧ ta.time = s i ∧ ta.state = l.bckFlown φ d i)
      (by
        intro i hi ta ⟨hs, ht, hx⟩
        have hu1 : usub l.nseg (i + 1) = l.nseg - 1 - i := by rw [SF.usub_le (by omega) (by omega)]; omega
        have hth := thrustAt_thrust (l := l) (i := l.nseg - 1 - i) (by omega)
        have hrun : bckSeg E l i ta = until_ E (E.sub l.tof (E.mul (E.ofNat (i + 1)) (l.dt E)))
            { ta with u := l.thrust (l.nseg - 1 - i) } := by
          unfold bckSeg
          rw [hu1, Nat.mod_eq_of_lt (by omega), hth]
          rfl
        unfold until_ at hrun
        simp only [hE.prop, hE.mul, hE.sub, hE.ofNat, dt] at hrun
        refine ⟨_, hrun, hs, rfl, ?_⟩
        show φ ta.mu ta.veff (l.thrust (l.nseg - 1 - i)) _ ta.state =
          φ l.tas.mu l.tas.veff (l.thrust (l.nseg - 1 - i)) (-d (l.nseg - 1 - i)) (l.bckFlown φ d i)
        rw [hs.2.1, hs.2.2, hx, ht]
        simp only [hd, if_neg (show ¬ l.nseg - 1 - i < l.nsegFwd by omega)]
        rw [show n - 1 - (l.nseg - 1 - i) = i by omega, neg_sub]
        rfl)
      ⟨s1, s0.symm, rfl⟩
    simp only [Mut.assign_bind_run]
    rw [Mut.bind_run, e1]
    simp only [Mut.read_bind_run, Mut.assign_bind_run]
    rw [Mut.bind_run, e2]
    simp only [Mut.read_bind_run, x1, x2]
    rfl

/-- Rounded arithmetic and motion along straight lines. -/
noncomputable def driftD : Env ℝ where
  add a b := rn (a + b)
  sub a b := rn (a - b)
  mul a b := rn (a * b)
  div a b := rn (a / b)
  ofNat n := n
  g0 := 9.80665
  prop _ _ _ _ t0 x t1 := some ⟨⟨x.rv.r + (t1 - t0) • x.rv.v, x.rv.v⟩, x.m⟩
  vprop _ _ _ _ _ _ _ := none
  grid _ _ _ _ _ _ _ := none
  rhs _ _ _ x := x
  con _ := 0

/-- Three segments in a unit of time, one of them flown forward. -/
example (s f : St ℝ) (ta : Integ ℝ) :
    let l : Leg ℝ := ⟨s, [1, 0, 0, 0, 1, 0, 0, 0, 1], [1, 0, 0, 0, 1, 0, 0, 0, 1], f, 1, 1, 1, 1, 1 / 2, 1, 3, 1, 2, ta, ta⟩
    ∃ a b c : ℝ, 0 < a ∧ 0 < b ∧ 0 < c ∧ |a + b + c - 1| ≤ 6 * 2⁻¹ ^ 53 ∧
      (computeMismatch driftD l).1 = .ok (St.subWith driftD ⟨⟨s.rv.r + a • s.rv.v, s.rv.v⟩, s.m⟩
        ⟨⟨f.rv.r + (-c) • f.rv.v + (-b) • f.rv.v, f.rv.v⟩, f.m⟩) := by
  intro l
  have hrep : Rep (1 : ℝ) := by have := rep_rn (1 : ℝ); rwa [show rn (1 : ℝ) = 1 by exact_mod_cast rn_int (K := ℝ) (n := 1) (by norm_num)] at this
  obtain ⟨d, h1, h2, h3⟩ := C102_segments (E := driftD) (φ := fun _ _ _ t x => ⟨⟨x.rv.r + t • x.rv.v, x.rv.v⟩, x.m⟩)
    ⟨fun _ _ => rfl, fun _ _ => rfl, fun _ _ => rfl, fun _ => rfl, fun _ _ _ _ _ _ _ => rfl⟩ (l := l)
    ⟨rfl, by show 0 < 3; decide, by show 3 * 3 < 2 ^ 32; decide, rfl, rfl⟩ (by show (0 : ℝ) < 1; norm_num) hrep
  have e : ∑ i ∈ Finset.range l.nseg, d i = d 0 + d 1 + d 2 := by
    show ∑ i ∈ Finset.range 3, d i = _
    simp [Finset.sum_range_succ]
  rw [e] at h2
  refine ⟨d 0, d 1, d 2, (h1 0 (by show 0 < 3; decide)).1, (h1 1 (by show 1 < 3; decide)).1, (h1 2 (by show 2 < 3; decide)).1, ?_, h3⟩
  simpa [l] using h2

end Kep3.HF
