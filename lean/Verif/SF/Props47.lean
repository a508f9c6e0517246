import Verif.SF.GradLemmas
import Mathlib.Tactic.IntervalCases

/-!
# C47: `compute_mc_grad` returns the derivative of the mismatch constraints
-/

namespace Kep3.SF

open Kep3 SFSpec Filter Topology

/-! ## The passes compute the states and masses the gradient code differentiates -/

/-- A pass on a machine that acts like `gradients_multiple_impulses`, up to a change `V` of the
representation of the state. -/
theorem pass_view (g : GradArgs) (φ : RV ℝ → ℝ → RV ℝ) (M : Machine Craft) (V : RV ℝ → RV ℝ) (dt' : ℝ)
    (hfull : ∀ x m, M.coast ⟨some (V x), m⟩ dt' = ⟨some (V (φ x g.dt)), m⟩)
    (hhalf : ∀ x m, M.coast ⟨some (V x), m⟩ (dt' / 2) = ⟨some (V (φ x (g.dt / 2))), m⟩)
    (hkick : ∀ x i, i < g.n → M.kick ⟨some (V x), g.m i⟩ (g.u i) =
      ⟨some (V ⟨x.r, ⟨x.v.x + (g.Dv i).x, x.v.y + (g.Dv i).y, x.v.z + (g.Dv i).z⟩⟩), g.m (i + 1)⟩)
    (hn : 0 < g.n) :
    pass M dt' g.us ⟨some (V g.rvs), g.ms⟩ = ⟨some (V (g.after φ g.n)), g.m g.n⟩ := by
  have key : ∀ k i, i + k = g.n → i < g.n →
      arcs M dt' (g.us.drop i) ⟨some (V (g.after φ i)), g.m i⟩ = ⟨some (V (g.after φ g.n)), g.m g.n⟩ := by
    intro k
    induction k with
    | zero => intro i h hi; omega
    | succ k ih =>
      intro i h hi
      have hi' : i < g.us.length := hi
      rw [List.drop_eq_getElem_cons hi']
      have hu : g.us[i] = g.u i := by
        unfold GradArgs.u
        rw [List.getD_eq_getElem?_getD, List.getElem?_eq_getElem hi', Option.getD_some]
      rw [hu]
      cases hd : g.us.drop (i + 1) with
      | nil =>
        have hlast : i + 1 = g.n := by
          have : g.us.length ≤ i + 1 := List.drop_eq_nil_iff.1 hd
          unfold GradArgs.n; omega
        rw [arcs, hkick _ _ hi, hhalf, ← hlast]
        unfold GradArgs.after
        rw [show g.dur (i + 1) = g.dt / 2 by unfold GradArgs.dur; rw [if_pos (Or.inr hlast)]]
        rfl
      | cons v vs =>
        have hlt : i + 1 < g.n := by
          by_contra hge
          have : g.us.drop (i + 1) = [] := List.drop_eq_nil_iff.2 (by unfold GradArgs.n at hge; omega)
          rw [this] at hd; cases hd
        rw [arcs, hkick _ _ hi, hfull, ← hd]
        have := ih (i + 1) (by omega) hlt
        rw [← this]
        congr 1
        unfold GradArgs.after
        rw [show g.dur (i + 1) = g.dt by
          unfold GradArgs.dur; rw [if_neg (by omega)]]
        rfl
  have h0 := key g.n 0 (by omega) hn
  rw [List.drop_zero] at h0
  unfold pass
  cases hus : g.us with
  | nil => unfold GradArgs.n at hn; rw [hus] at hn; simp at hn
  | cons u us =>
    simp only
    rw [hhalf, ← hus, ← h0]
    unfold GradArgs.after
    rw [show g.dur 0 = g.dt / 2 by unfold GradArgs.dur; rw [if_pos (Or.inl rfl)]]
    rfl

theorem m_pos (g : GradArgs) (h : 0 < g.ms) (i : ℕ) : 0 < g.m i := by
  induction i with
  | zero => exact h
  | succ i ih => exact mul_pos ih (Real.exp_pos _)

theorem pass_fwd_eq (g : GradArgs) (φ : RV ℝ → ℝ → RV ℝ) (isp : ℝ) (hn : 0 < g.n) (hc : 0 ≤ g.c)
    (hm : 0 < g.ms) (ha : g.a = 1 / isp / G0) :
    pass (fwdMachine (fun x t => some (φ x t)) g.c (isp * G0)) g.dt g.us ⟨some g.rvs, g.ms⟩ =
      ⟨some (g.after φ g.n), g.m g.n⟩ := by
  refine pass_view g φ _ id g.dt (fun _ _ => rfl) (fun _ _ => rfl) (fun x i hi => ?_) hn
  have hk : 0 ≤ g.c / g.m i := div_nonneg hc (m_pos g hm i).le
  show Craft.mk _ (g.m i * Real.exp (-(Real.sqrt _) / _)) = _
  rw [norm_scaled hk]
  congr 1
  show _ = g.m i * Real.exp (-(g.c / g.m i * g.un i) * g.a)
  rw [ha]
  congr 2
  rw [un_sq, div_div, mul_one_div]

theorem flipV_flipV (x : RV ℝ) : flipV (flipV x) = x := by
  unfold flipV; simp

/-- The equations of motion do not change when time runs backwards. -/
def Reversible (φ : RV ℝ → ℝ → RV ℝ) : Prop := ∀ x t, φ (flipV x) (-t) = flipV (φ x t)

theorem pass_bck_eq (g : GradArgs) (φ : RV ℝ → ℝ → RV ℝ) (hφ : Reversible φ) (isp : ℝ) (hn : 0 < g.n)
    (hc : 0 ≤ g.c) (hm : 0 < g.ms) (ha : g.a = 1 / isp / G0) :
    pass (bckMachine (fun x t => some (φ x t)) g.c (isp * G0)) (-g.dt) g.us.reverse ⟨some g.rvs, g.ms⟩ =
      ⟨some (flipV ((bckArgs g).after φ g.n)), (bckArgs g).m g.n⟩ := by
  have hlen : (bckArgs g).n = g.n := by unfold bckArgs GradArgs.n; simp
  have := pass_view (bckArgs g) φ (bckMachine (fun x t => some (φ x t)) g.c (isp * G0)) flipV (-g.dt)
    (fun x m => by
      show Craft.mk (some (φ (flipV x) (-g.dt))) m = _
      rw [hφ]; rfl)
    (fun x m => by
      show Craft.mk (some (φ (flipV x) (-g.dt / 2))) m = _
      rw [neg_div, hφ]; rfl)
    (fun x i hi => by
      have hk : 0 ≤ g.c / (bckArgs g).m i := div_nonneg hc (m_pos (bckArgs g) hm i).le
      show Craft.mk _ ((bckArgs g).m i * Real.exp ((Real.sqrt _) / _)) = _
      rw [norm_scaled hk]
      congr 1
      · unfold flipV
        show some (RV.mk _ _) = some (RV.mk _ _)
        congr 2
        unfold GradArgs.Dv
        simp only [V3.mk.injEq]
        refine ⟨?_, ?_, ?_⟩ <;> (show -_ - _ = -(_ + _); rw [neg_add]; rfl)
      · show _ = (bckArgs g).m i * Real.exp (-((bckArgs g).c / (bckArgs g).m i * (bckArgs g).un i) * -g.a)
        rw [ha]
        congr 2
        rw [un_sq, div_div, neg_mul_neg, mul_one_div]
        rfl)
    (by rw [hlen]; exact hn)
  rw [hlen] at this
  rw [← this]
  show pass _ _ _ _ = pass _ _ g.us.reverse (Craft.mk (some (flipV (flipV g.rvs))) g.ms)
  rw [flipV_flipV]

/-! ## Reading the flat arrays -/

theorem flatten_length (rows cols : ℕ) (x : ℕ → ℕ → ℝ) : (flatten rows cols x).length = rows * cols := by
  unfold flatten; simp

theorem flatten_getD {rows cols : ℕ} (x : ℕ → ℕ → ℝ) {r j : ℕ} (hr : r < rows) (hj : j < cols) :
    (flatten rows cols x).getD (cols * r + j) 0 = x r j := by
  have hlt : cols * r + j < rows * cols := by
    calc cols * r + j < cols * r + cols := by omega
      _ = cols * (r + 1) := by ring
      _ ≤ cols * rows := Nat.mul_le_mul_left _ hr
      _ = rows * cols := Nat.mul_comm _ _
  unfold flatten
  rw [List.getD_eq_getElem?_getD, List.getElem?_map, List.getElem?_range hlt]
  simp only [Option.map_some, Option.getD_some]
  rw [Nat.mul_add_div (by omega), Nat.div_eq_of_lt hj, Nat.mul_add_mod, Nat.mod_eq_of_lt hj, Nat.add_zero]

theorem triples_getD (n : ℕ) : ∀ (t : List ℝ), t.length = 3 * n → ∀ i, i < n →
    (triples t).getD i 0 = ⟨t.getD (3 * i) 0, t.getD (3 * i + 1) 0, t.getD (3 * i + 2) 0⟩ := by
  induction n with
  | zero => intro t _ i hi; omega
  | succ n ih =>
    intro t h i hi
    match t, h with
    | x :: y :: z :: r, h =>
      simp only [List.length_cons] at h
      cases i with
      | zero => rfl
      | succ i =>
        have := ih r (by omega) i (by omega)
        rw [show 3 * (i + 1) = 3 * i + 3 by ring, show 3 * i + 3 + 1 = 3 * i + 1 + 3 by ring,
          show 3 * i + 3 + 2 = 3 * i + 2 + 3 by ring]
        exact this
    | [], h => simp at h
    | [_], h => simp at h; omega
    | [_, _], h => simp at h; omega

theorem sum_triples (n : ℕ) (f : ℕ → ℝ) :
    ∑ j ∈ Finset.range (3 * n), f j = ∑ i ∈ Finset.range n, ∑ k : Fin 3, f (3 * i + k) := by
  induction n with
  | zero => simp
  | succ n ih =>
    rw [show 3 * (n + 1) = 3 * n + 1 + 1 + 1 by ring, Finset.sum_range_succ, Finset.sum_range_succ,
      Finset.sum_range_succ, Finset.sum_range_succ, ih, Fin.sum_univ_three]
    simp only [Fin.val_zero, Fin.val_one, Fin.val_two, Nat.add_zero]
    ring

/-! ## Curves of legs -/

/-- A one-parameter family of legs, differentiable at 0, in which the initial and final state and
mass, the throttles and the time of flight vary (velocities `xs' ms' xf' mf' th' tof'`). -/
structure LegCurve (l : ℝ → Leg ℝ) (xs' : Fin 6 → ℝ) (ms' : ℝ) (xf' : Fin 6 → ℝ) (mf' : ℝ) (th' : ℕ → ℝ)
    (tof' : ℝ) : Prop where
  maxThrust : ∀ e, (l e).maxThrust = (l 0).maxThrust
  isp : ∀ e, (l e).isp = (l 0).isp
  mu : ∀ e, (l e).mu = (l 0).mu
  nseg : ∀ e, (l e).nseg = (l 0).nseg
  nsegFwd : ∀ e, (l e).nsegFwd = (l 0).nsegFwd
  nsegBck : ∀ e, (l e).nsegBck = (l 0).nsegBck
  len : ∀ e, (l e).throttles.length = 3 * (l 0).nseg
  rvs : StateDeriv (fun e => (l e).rvs) xs'
  rvf : StateDeriv (fun e => (l e).rvf) xf'
  ms : HasDerivAt (fun e => (l e).ms) ms' 0
  mf : HasDerivAt (fun e => (l e).mf) mf' 0
  th : ∀ j, j < 3 * (l 0).nseg → HasDerivAt (fun e => (l e).throttles.getD j 0) (th' j) 0
  tof : HasDerivAt (fun e => (l e).tof) tof' 0

/-- A leg at which the gradient is computed without dividing by zero. -/
structure Regular (l : Leg ℝ) : Prop where
  nseg : 0 < l.nseg
  split : l.nsegFwd + l.nsegBck = l.nseg
  tof : 0 < l.tof
  maxThrust : 0 ≤ l.maxThrust
  ms : 0 < l.ms
  mf : 0 < l.mf
  th : ∀ u ∈ triples l.throttles, u ≠ 0

/-- The arguments of the two half legs. -/
noncomputable def fwdHalf (l : Leg ℝ) : GradArgs :=
  halfArgs l ((triples l.throttles).take l.nsegFwd) l.rvs l.ms
/-- The arguments of the backward half, before `gradients_bck` changes signs. -/
noncomputable def bckHalf (l : Leg ℝ) : GradArgs :=
  halfArgs l ((triples l.throttles).drop l.nsegFwd) l.rvf l.mf

/-- Sign change of the velocity components. -/
def J (w : Fin 6 → ℝ) : Fin 6 → ℝ := ![w 0, w 1, w 2, -w 3, -w 4, -w 5]

theorem vec_flipV (x : RV ℝ) : vec (flipV x) = J (vec x) := by
  unfold vec flipV J
  funext r
  fin_cases r <;> rfl

theorem StateDeriv.flip {X : ℝ → RV ℝ} {x' : Fin 6 → ℝ} (h : StateDeriv X x') :
    StateDeriv (fun e => flipV (X e)) (J x') := by
  intro r
  simp only [vec_flipV]
  unfold J
  fin_cases r
  · exact h 0
  · exact h 1
  · exact h 2
  · exact (h 3).neg
  · exact (h 4).neg
  · exact (h 5).neg

/-- Velocity of the `i`-th throttle triple. -/
def uVel (th' : ℕ → ℝ) (i : ℕ) : V3 ℝ := ⟨th' (3 * i), th' (3 * i + 1), th' (3 * i + 2)⟩

section curve
variable {l : ℝ → Leg ℝ} {xs' : Fin 6 → ℝ} {ms' : ℝ} {xf' : Fin 6 → ℝ} {mf' : ℝ} {th' : ℕ → ℝ} {tof' : ℝ}

theorem LegCurve.triple' (L : LegCurve l xs' ms' xf' mf' th' tof') {i : ℕ} (hi : i < (l 0).nseg) (k : Fin 3) :
    HasDerivAt (fun e => V3.get ((triples (l e).throttles).getD i 0) k) (V3.get (uVel th' i) k) 0 := by
  have h : ∀ e, (triples (l e).throttles).getD i 0 = ⟨(l e).throttles.getD (3 * i) 0,
      (l e).throttles.getD (3 * i + 1) 0, (l e).throttles.getD (3 * i + 2) 0⟩ := fun e =>
    triples_getD _ _ (L.len e) i hi
  simp only [h]
  fin_cases k
  · exact L.th (3 * i) (by omega)
  · exact L.th (3 * i + 1) (by omega)
  · exact L.th (3 * i + 2) (by omega)

theorem LegCurve.dt' (L : LegCurve l xs' ms' xf' mf' th' tof') :
    HasDerivAt (fun e => (l e).tof / ((l e).nseg : ℝ)) (tof' / (l 0).nseg) 0 := by
  simp only [L.nseg]
  exact L.tof.div_const _

theorem Regular.triple_ne {l : Leg ℝ} (R : Regular l) (hl : l.throttles.length = 3 * l.nseg) {i : ℕ}
    (hi : i < l.nseg) : (triples l.throttles).getD i 0 ≠ 0 := by
  have hL := triples_length _ _ hl
  rw [List.getD_eq_getElem?_getD, List.getElem?_eq_getElem (by omega), Option.getD_some]
  exact R.th _ (List.getElem_mem _)

theorem fwd_u (l : Leg ℝ) {i : ℕ} (hi : i < l.nsegFwd) :
    (fwdHalf l).u i = (triples l.throttles).getD i 0 := by
  unfold fwdHalf halfArgs GradArgs.u
  simp only [List.getD_eq_getElem?_getD, List.getElem?_take, if_pos hi]

theorem bck_u (l : Leg ℝ) (R : l.nsegFwd + l.nsegBck = l.nseg) (hl : l.throttles.length = 3 * l.nseg)
    {i : ℕ} (hi : i < l.nsegBck) :
    (bckArgs (bckHalf l)).u i = (triples l.throttles).getD (l.nseg - 1 - i) 0 := by
  have hL := triples_length _ _ hl
  unfold bckHalf halfArgs bckArgs GradArgs.u
  simp only [List.getD_eq_getElem?_getD]
  rw [List.getElem?_reverse (by rw [List.length_drop, hL]; omega), List.getElem?_drop, List.length_drop, hL]
  congr 2
  omega

theorem LegCurve.fwdFamily (L : LegCurve l xs' ms' xf' mf' th' tof') (R : Regular (l 0))
    (hn : 0 < (l 0).nsegFwd) :
    Family (fun e => fwdHalf (l e)) (l 0).nsegFwd xs' ms' (uVel th') ((l 0).nsegFwd * (tof' / (l 0).nseg)) where
  len e := by
    have := R.split
    show ((triples (l e).throttles).take (l e).nsegFwd).length = _
    rw [List.length_take, triples_length _ _ (L.len e), L.nsegFwd]
    omega
  npos := hn
  rvs := L.rvs
  ms := L.ms
  us i k hi := by
    have := R.split
    refine (L.triple' (i := i) (by omega) k).congr_of_eventuallyEq (Filter.Eventually.of_forall fun e => ?_)
    show V3.get ((fwdHalf (l e)).u i) k = _
    rw [fwd_u _ (by rw [L.nsegFwd]; exact hi)]
  dt := by
    have h0 : ((l 0).nsegFwd : ℝ) ≠ 0 := by exact_mod_cast hn.ne'
    rw [mul_div_cancel_left₀ _ h0]
    exact L.dt'
  c _ := rfl
  a e := by
    show 1 / (l e).isp / G0 = 1 / (l 0).isp / G0
    rw [L.isp]
  thrust := L.maxThrust
  mu := L.mu
  ms0 := R.ms.ne'
  us0 i hi := by
    have := R.split
    rw [fwd_u _ hi]
    exact R.triple_ne (L.len 0) (by omega)

theorem LegCurve.bckFamily (L : LegCurve l xs' ms' xf' mf' th' tof') (R : Regular (l 0))
    (hn : 0 < (l 0).nsegBck) :
    Family (fun e => bckArgs (bckHalf (l e))) (l 0).nsegBck (J xf') mf'
      (fun i => uVel th' ((l 0).nseg - 1 - i)) ((l 0).nsegBck * (tof' / (l 0).nseg)) where
  len e := by
    have := R.split
    show ((triples (l e).throttles).drop (l e).nsegFwd).reverse.length = _
    rw [List.length_reverse, List.length_drop, triples_length _ _ (L.len e), L.nsegFwd]
    omega
  npos := hn
  rvs := L.rvf.flip
  ms := L.mf
  us i k hi := by
    have := R.split
    refine (L.triple' (i := (l 0).nseg - 1 - i) (by omega) k).congr_of_eventuallyEq
      (Filter.Eventually.of_forall fun e => ?_)
    show V3.get ((bckArgs (bckHalf (l e))).u i) k = _
    rw [bck_u _ (by rw [L.nsegFwd, L.nsegBck, L.nseg]; exact R.split) (by rw [L.nseg]; exact L.len e)
      (by rw [L.nsegBck]; exact hi), L.nseg]
  dt := by
    have h0 : ((l 0).nsegBck : ℝ) ≠ 0 := by exact_mod_cast hn.ne'
    rw [mul_div_cancel_left₀ _ h0]
    exact L.dt'
  c _ := rfl
  a e := by
    show -(1 / (l e).isp / G0) = -(1 / (l 0).isp / G0)
    rw [L.isp]
  thrust := L.maxThrust
  mu := L.mu
  ms0 := R.mf.ne'
  us0 i hi := by
    have := R.split
    rw [bck_u _ R.split (L.len 0) hi]
    exact R.triple_ne (L.len 0) (by omega)

end curve

/-- Row `r` of the gradients of a half leg applied to a velocity. -/
noncomputable def rowVal (φ : RV ℝ → ℝ → RV ℝ) (Φ : RV ℝ → ℝ → Matrix (Fin 6) (Fin 6) ℝ) (g : GradArgs)
    (x' : Fin 6 → ℝ) (ms' : ℝ) (u' : ℕ → V3 ℝ) (T' : ℝ) (r : ℕ) : ℝ :=
  ∑ j : Fin 6, g.gradRvm φ Φ r j * x' j + g.gradRvm φ Φ r 6 * ms' +
    ∑ i ∈ Finset.range g.n, ∑ k : Fin 3, g.grad φ Φ r (3 * i + k) * V3.get (u' i) k +
    g.grad φ Φ r (3 * g.n) * T'

/-- A state and a mass as the seven components of the mismatch. -/
def vec7 (x : RV ℝ) (m : ℝ) : Fin 7 → ℝ := ![x.r.x, x.r.y, x.r.z, x.v.x, x.v.y, x.v.z, m]

theorem vec7_castSucc (x : RV ℝ) (m : ℝ) (r : Fin 6) : vec7 x m r.castSucc = vec x r := by
  unfold vec7 vec; fin_cases r <;> rfl

theorem vec7_last (x : RV ℝ) (m : ℝ) : vec7 x m (Fin.last 6) = m := rfl

/-- End of a half leg, from the arguments of the gradient code. -/
noncomputable def endOf (φ : RV ℝ → ℝ → RV ℝ) (g : GradArgs) : Fin 7 → ℝ :=
  if g.n = 0 then vec7 g.rvs g.ms else vec7 (g.after φ g.n) (g.m g.n)

theorem half_deriv {φ : RV ℝ → ℝ → RV ℝ} {Φ : RV ℝ → ℝ → Matrix (Fin 6) (Fin 6) ℝ} {G : ℝ → GradArgs}
    {n : ℕ} {x' : Fin 6 → ℝ} {ms' : ℝ} {u' : ℕ → V3 ℝ} {T' : ℝ} (hlen : ∀ e, (G e).n = n)
    (hrvs : StateDeriv (fun e => (G e).rvs) x') (hms : HasDerivAt (fun e => (G e).ms) ms' 0)
    (hF : 0 < n → Family G n x' ms' u' T')
    (hflow : 0 < n → ∀ i, i ≤ n → FlowDeriv φ Φ (G 0).mu ((G 0).before φ i) ((G 0).dur i)) (r : Fin 7) :
    HasDerivAt (fun e => endOf φ (G e) r) (rowVal φ Φ (G 0) x' ms' u' T' r) 0 := by
  rcases Nat.eq_zero_or_pos n with hn | hn
  · subst hn
    have e1 : (fun e => endOf φ (G e) r) = fun e => vec7 (G e).rvs (G e).ms r := by
      funext e; unfold endOf; rw [if_pos (hlen e)]
    have e2 : rowVal φ Φ (G 0) x' ms' u' T' r =
        ∑ j : Fin 6, (if (r : ℕ) = j then 1 else 0) * x' j + (if (r : ℕ) = 6 then 1 else 0) * ms' := by
      unfold rowVal GradArgs.gradRvm GradArgs.grad
      simp only [hlen 0, if_true, Finset.range_zero, Finset.sum_empty, zero_mul, add_zero]
    rw [e1, e2]
    refine Fin.lastCases ?_ (fun r => ?_) r
    · simp only [vec7_last, Fin.val_last]
      refine hms.congr_deriv ?_
      rw [Finset.sum_eq_zero]
      · simp
      · intro j _
        have := j.2
        rw [if_neg (by omega), zero_mul]
    · simp only [vec7_castSucc, Fin.val_castSucc]
      refine (hrvs r).congr_deriv ?_
      have := r.2
      rw [Finset.sum_eq_single r]
      · rw [if_pos rfl, if_neg (by omega)]; ring
      · intro j _ hj
        rw [if_neg (fun h => hj (Fin.ext h.symm)), zero_mul]
      · intro h; exact absurd (Finset.mem_univ r) h
  · have F := hF hn
    have e1 : (fun e => endOf φ (G e) r) = fun e => vec7 ((G e).after φ n) ((G e).m n) r := by
      funext e; unfold endOf; rw [if_neg (by rw [hlen e]; omega), hlen e]
    rw [e1]
    unfold rowVal
    rw [hlen 0]
    refine Fin.lastCases ?_ (fun r => ?_) r
    · simp only [vec7_last, Fin.val_last]
      exact F.mass_row
    · simp only [vec7_castSucc, Fin.val_castSucc]
      exact F.state_rows (hflow hn) r

/-- Sign of a row under the change of sign of the velocity. -/
def sgn (r : ℕ) : ℝ := if 3 ≤ r ∧ r < 6 then -1 else 1

theorem bckRvm_eq (φ : RV ℝ → ℝ → RV ℝ) (Φ : RV ℝ → ℝ → Matrix (Fin 6) (Fin 6) ℝ) (g : GradArgs) (r j : ℕ)
    (hj : j < 7) :
    bckRvm φ Φ g r j = -(sgn r * (bckArgs g).gradRvm φ Φ r j * sgn j) := by
  unfold bckRvm sgn
  interval_cases j <;> simp <;> split <;> ring

theorem bckGrad_eq (φ : RV ℝ → ℝ → RV ℝ) (Φ : RV ℝ → ℝ → Matrix (Fin 6) (Fin 6) ℝ) (g : GradArgs) (r i : ℕ)
    (k : Fin 3) (hi : i < g.n) :
    bckGrad φ Φ g r (3 * i + k) = -(sgn r * (bckArgs g).grad φ Φ r (3 * (g.n - 1 - i) + k)) := by
  have hk := k.2
  unfold GradArgs.n at hi ⊢
  unfold bckGrad sgn
  simp only
  rw [if_pos (by omega), show (3 * i + (k : ℕ)) / 3 = i by omega, show (3 * i + (k : ℕ)) % 3 = k by omega,
    if_pos (by omega), if_pos (by omega),
    show 3 * g.us.length - 1 - (3 * i + (2 - (k : ℕ))) = 3 * (g.us.length - 1 - i) + k by omega]
  split <;> ring

theorem bckGrad_tof (φ : RV ℝ → ℝ → RV ℝ) (Φ : RV ℝ → ℝ → Matrix (Fin 6) (Fin 6) ℝ) (g : GradArgs) (r : ℕ) :
    bckGrad φ Φ g r (3 * g.n) = sgn r * (bckArgs g).grad φ Φ r (3 * g.n) := by
  unfold GradArgs.n
  unfold bckGrad sgn
  simp only [lt_irrefl, if_false]
  split <;> ring

theorem J_sgn (w : Fin 6 → ℝ) (j : Fin 6) : J w j = sgn j * w j := by
  unfold J sgn; fin_cases j <;> simp

/-- The signs and the reordering of `gradients_bck`. -/
theorem bck_rows (φ : RV ℝ → ℝ → RV ℝ) (Φ : RV ℝ → ℝ → Matrix (Fin 6) (Fin 6) ℝ) (g : GradArgs)
    (x' : Fin 6 → ℝ) (ms' : ℝ) (u' : ℕ → V3 ℝ) (T' : ℝ) (r : ℕ) :
    -(sgn r * rowVal φ Φ (bckArgs g) (J x') ms' (fun i => u' (g.n - 1 - i)) T' r) =
      ∑ j : Fin 6, bckRvm φ Φ g r j * x' j + bckRvm φ Φ g r 6 * ms' +
        ∑ i ∈ Finset.range g.n, ∑ k : Fin 3, bckGrad φ Φ g r (3 * i + k) * V3.get (u' i) k -
        bckGrad φ Φ g r (3 * g.n) * T' := by
  have hlen : (bckArgs g).n = g.n := by unfold bckArgs GradArgs.n; simp
  unfold rowVal
  rw [hlen]
  have h1 : ∑ j : Fin 6, bckRvm φ Φ g r j * x' j = -(sgn r * ∑ j : Fin 6, (bckArgs g).gradRvm φ Φ r j * J x' j) := by
    rw [Finset.mul_sum, ← Finset.sum_neg_distrib]
    apply Finset.sum_congr rfl
    intro j _
    rw [bckRvm_eq _ _ _ _ _ (by have := j.2; omega), J_sgn]
    ring
  have h2 : bckRvm φ Φ g r 6 = -(sgn r * (bckArgs g).gradRvm φ Φ r 6) := by
    rw [bckRvm_eq _ _ _ _ _ (by norm_num)]
    unfold sgn; simp
  have h3 : ∑ i ∈ Finset.range g.n, ∑ k : Fin 3, bckGrad φ Φ g r (3 * i + k) * V3.get (u' i) k =
      -(sgn r * ∑ i ∈ Finset.range g.n, ∑ k : Fin 3, (bckArgs g).grad φ Φ r (3 * i + k) *
        V3.get (u' (g.n - 1 - i)) k) := by
    rw [← Finset.sum_range_reflect, Finset.mul_sum, ← Finset.sum_neg_distrib]
    apply Finset.sum_congr rfl
    intro i hi
    rw [Finset.mem_range] at hi
    rw [Finset.mul_sum, ← Finset.sum_neg_distrib]
    apply Finset.sum_congr rfl
    intro k _
    rw [bckGrad_eq _ _ _ _ _ _ (by omega), show g.n - 1 - (g.n - 1 - i) = i by omega]
    ring
  rw [h1, h2, h3, bckGrad_tof]
  ring

/-- Difference of two states. -/
def _root_.Kep3.RV.sub (x y : RV ℝ) : RV ℝ :=
  ⟨⟨x.r.x - y.r.x, x.r.y - y.r.y, x.r.z - y.r.z⟩, ⟨x.v.x - y.v.x, x.v.y - y.v.y, x.v.z - y.v.z⟩⟩

/-- State and mass at the end of the forward pass. -/
noncomputable def fwdEnd (φ : RV ℝ → ℝ → RV ℝ) (l : Leg ℝ) : RV ℝ × ℝ :=
  if l.nsegFwd = 0 then (l.rvs, l.ms) else ((fwdHalf l).after φ l.nsegFwd, (fwdHalf l).m l.nsegFwd)

/-- State and mass at the end of the backward pass. -/
noncomputable def bckEnd (φ : RV ℝ → ℝ → RV ℝ) (l : Leg ℝ) : RV ℝ × ℝ :=
  if l.nsegBck = 0 then (l.rvf, l.mf)
  else (flipV ((bckArgs (bckHalf l)).after φ l.nsegBck), (bckArgs (bckHalf l)).m l.nsegBck)

theorem fwdHalf_n (l : Leg ℝ) (hl : l.throttles.length = 3 * l.nseg) (hs : l.nsegFwd + l.nsegBck = l.nseg) :
    (fwdHalf l).n = l.nsegFwd := by
  show ((triples l.throttles).take l.nsegFwd).length = _
  rw [List.length_take, triples_length _ _ hl]
  omega

theorem bckHalf_n (l : Leg ℝ) (hl : l.throttles.length = 3 * l.nseg) (hs : l.nsegFwd + l.nsegBck = l.nseg) :
    (bckHalf l).n = l.nsegBck := by
  show ((triples l.throttles).drop l.nsegFwd).length = _
  rw [List.length_drop, triples_length _ _ hl]
  omega

theorem mismatch_eq (φ : RV ℝ → ℝ → RV ℝ) (hφ : Reversible φ) (l : Leg ℝ)
    (hl : l.throttles.length = 3 * l.nseg) (hs : l.nsegFwd + l.nsegBck = l.nseg) (htof : 0 ≤ l.tof)
    (hT : 0 ≤ l.maxThrust) (hms : 0 < l.ms) (hmf : 0 < l.mf) :
    computeMismatch (fun x t => some (φ x t)) l =
      .ok (some ((fwdEnd φ l).1.sub (bckEnd φ l).1), (fwdEnd φ l).2 - (bckEnd φ l).2) := by
  have hc : 0 ≤ l.maxThrust * (l.tof / l.nseg) := mul_nonneg hT (div_nonneg htof (Nat.cast_nonneg _))
  have eF : pass (fwdMachine (fun x t => some (φ x t)) (l.maxThrust * (l.tof / l.nseg)) (l.isp * G0))
      (l.tof / l.nseg) ((triples l.throttles).take l.nsegFwd) ⟨some l.rvs, l.ms⟩ =
      ⟨some (fwdEnd φ l).1, (fwdEnd φ l).2⟩ := by
    have hn := fwdHalf_n l hl hs
    unfold fwdEnd
    split
    · rename_i h0
      rw [h0, List.take_zero]; rfl
    · rename_i h0
      have := pass_fwd_eq (fwdHalf l) φ l.isp (by omega) hc hms rfl
      rw [hn] at this
      exact this
  have eB : pass (bckMachine (fun x t => some (φ x t)) (l.maxThrust * (l.tof / l.nseg)) (l.isp * G0))
      (-(l.tof / l.nseg)) ((triples l.throttles).drop l.nsegFwd).reverse ⟨some l.rvf, l.mf⟩ =
      ⟨some (bckEnd φ l).1, (bckEnd φ l).2⟩ := by
    have hn := bckHalf_n l hl hs
    unfold bckEnd
    split
    · rename_i h0
      rw [List.drop_eq_nil_of_le (by rw [triples_length _ _ hl]; omega)]; rfl
    · rename_i h0
      have := pass_bck_eq (bckHalf l) φ hφ l.isp (by omega) hc hmf rfl
      rw [hn] at this
      exact this
  unfold computeMismatch
  simp only [fwdPass_eq _ _ _ l.nseg l.nsegFwd _ hl (by omega),
    bckPass_eq _ _ _ l.nseg l.nsegBck _ hl (by omega), Res.ok_bind,
    show l.nseg - l.nsegBck = l.nsegFwd by omega]
  rw [eF, eB]
  rfl

theorem vec7_flip (x : RV ℝ) (m : ℝ) (r : Fin 7) : vec7 (flipV x) m r = sgn r * vec7 x m r := by
  unfold vec7 flipV sgn; fin_cases r <;> simp

theorem vec7_sub (x y : RV ℝ) (m n : ℝ) (r : Fin 7) : vec7 (x.sub y) (m - n) r = vec7 x m r - vec7 y n r := by
  unfold vec7; fin_cases r <;> rfl

theorem fwdEnd_eq (φ : RV ℝ → ℝ → RV ℝ) (l : Leg ℝ) (hl : l.throttles.length = 3 * l.nseg)
    (hs : l.nsegFwd + l.nsegBck = l.nseg) (r : Fin 7) :
    vec7 (fwdEnd φ l).1 (fwdEnd φ l).2 r = endOf φ (fwdHalf l) r := by
  unfold fwdEnd endOf
  rw [fwdHalf_n l hl hs]
  split <;> rfl

theorem bckEnd_eq (φ : RV ℝ → ℝ → RV ℝ) (l : Leg ℝ) (hl : l.throttles.length = 3 * l.nseg)
    (hs : l.nsegFwd + l.nsegBck = l.nseg) (r : Fin 7) :
    vec7 (bckEnd φ l).1 (bckEnd φ l).2 r = sgn r * endOf φ (bckArgs (bckHalf l)) r := by
  have hlen : (bckArgs (bckHalf l)).n = l.nsegBck := by
    rw [← bckHalf_n l hl hs]; unfold bckArgs GradArgs.n; simp
  unfold bckEnd endOf
  rw [hlen]
  split
  · rw [← vec7_flip]
    show _ = vec7 (flipV (flipV l.rvf)) l.mf r
    rw [flipV_flipV]
  · rw [← vec7_flip]

/-- **C47.** Along every differentiable family of legs (initial and final state and mass, throttles
and time of flight all varying) each of the seven mismatch constraints is differentiable, and its
derivative is the corresponding row of the arrays returned by `compute_mc_grad` applied to the velocity
of the family: `gs` (7×7) to the initial state and mass, `gf` (7×7) to the final ones, and
`g` (7×(3 nseg + 1)) to the throttles followed by the time of flight. The arrays have exactly these
sizes, for every number of segments and every split, including those with an empty half.
Hypotheses: no zero throttle (the code divides by its norm), positive masses and time of flight; the
propagator is differentiable at the states visited, with the matrix `Φ` it returns and the equations
of motion as derivatives, and unchanged by reversal of time. -/
theorem C47_mc_grad {φ : RV ℝ → ℝ → RV ℝ} {Φ : RV ℝ → ℝ → Matrix (Fin 6) (Fin 6) ℝ} (hφ : Reversible φ)
    {l : ℝ → Leg ℝ} {xs' : Fin 6 → ℝ} {ms' : ℝ} {xf' : Fin 6 → ℝ} {mf' : ℝ} {th' : ℕ → ℝ} {tof' : ℝ}
    (L : LegCurve l xs' ms' xf' mf' th' tof') (R : Regular (l 0))
    (hF : ∀ i, i ≤ (l 0).nsegFwd →
      FlowDeriv φ Φ (l 0).mu ((fwdHalf (l 0)).before φ i) ((fwdHalf (l 0)).dur i))
    (hB : ∀ i, i ≤ (l 0).nsegBck →
      FlowDeriv φ Φ (l 0).mu ((bckArgs (bckHalf (l 0))).before φ i) ((bckArgs (bckHalf (l 0))).dur i)) :
    ∃ gs gf g, mcGrad φ Φ (l 0) = (gs, gf, g) ∧ gs.length = 49 ∧ gf.length = 49 ∧
      g.length = 7 * (3 * (l 0).nseg + 1) ∧
      ∃ D : ℝ → RV ℝ × ℝ,
        (∀ᶠ e in 𝓝 0, computeMismatch (fun x t => some (φ x t)) (l e) = .ok (some (D e).1, (D e).2)) ∧
        ∀ r : Fin 7, HasDerivAt (fun e => vec7 (D e).1 (D e).2 r)
          ((∑ j : Fin 6, gs.getD (7 * r + j) 0 * xs' j + gs.getD (7 * r + 6) 0 * ms') +
           (∑ j : Fin 6, gf.getD (7 * r + j) 0 * xf' j + gf.getD (7 * r + 6) 0 * mf') +
           (∑ j ∈ Finset.range (3 * (l 0).nseg), g.getD ((3 * (l 0).nseg + 1) * r + j) 0 * th' j +
            g.getD ((3 * (l 0).nseg + 1) * r + 3 * (l 0).nseg) 0 * tof')) 0 := by
  have hl0 := L.len 0
  have hs := R.split
  refine ⟨_, _, _, rfl, flatten_length _ _ _, flatten_length _ _ _, ?_, fun e =>
    ((fwdEnd φ (l e)).1.sub (bckEnd φ (l e)).1, (fwdEnd φ (l e)).2 - (bckEnd φ (l e)).2), ?_, ?_⟩
  · rw [flatten_length]; ring
  · have h1 : ∀ᶠ e in 𝓝 (0 : ℝ), 0 < (l e).tof := L.tof.continuousAt.eventually_const_lt R.tof
    have h2 : ∀ᶠ e in 𝓝 (0 : ℝ), 0 < (l e).ms := L.ms.continuousAt.eventually_const_lt R.ms
    have h3 : ∀ᶠ e in 𝓝 (0 : ℝ), 0 < (l e).mf := L.mf.continuousAt.eventually_const_lt R.mf
    filter_upwards [h1, h2, h3] with e h1 h2 h3
    exact mismatch_eq φ hφ (l e) (by rw [L.nseg]; exact L.len e)
      (by rw [L.nsegFwd, L.nsegBck, L.nseg]; exact hs) h1.le (by rw [L.maxThrust]; exact R.maxThrust) h2 h3
  · intro r
    have hr := r.2
    have hfn := fwdHalf_n (l 0) hl0 hs
    have hbn := bckHalf_n (l 0) hl0 hs
    have dF := half_deriv (φ := φ) (Φ := Φ) (G := fun e => fwdHalf (l e)) (n := (l 0).nsegFwd)
      (x' := xs') (ms' := ms') (u' := uVel th') (T' := (l 0).nsegFwd * (tof' / (l 0).nseg))
      (fun e => by rw [fwdHalf_n (l e) (by rw [L.nseg]; exact L.len e)
        (by rw [L.nsegFwd, L.nsegBck, L.nseg]; exact hs), L.nsegFwd])
      L.rvs L.ms (L.fwdFamily R) (fun _ => hF) r
    have dB := half_deriv (φ := φ) (Φ := Φ) (G := fun e => bckArgs (bckHalf (l e))) (n := (l 0).nsegBck)
      (x' := J xf') (ms' := mf') (u' := fun i => uVel th' ((l 0).nseg - 1 - i))
      (T' := (l 0).nsegBck * (tof' / (l 0).nseg))
      (fun e => by
        have : (bckArgs (bckHalf (l e))).n = (bckHalf (l e)).n := by unfold bckArgs GradArgs.n; simp
        rw [this, bckHalf_n (l e) (by rw [L.nseg]; exact L.len e)
        (by rw [L.nsegFwd, L.nsegBck, L.nseg]; exact hs), L.nsegBck])
      L.rvf.flip L.mf (L.bckFamily R) (fun _ => hB) r
    have dD := dF.sub (dB.const_mul (sgn r))
    have heq : (fun e => vec7 ((fwdEnd φ (l e)).1.sub (bckEnd φ (l e)).1) ((fwdEnd φ (l e)).2 - (bckEnd φ (l e)).2) r) =
        fun e => endOf φ (fwdHalf (l e)) r - sgn r * endOf φ (bckArgs (bckHalf (l e))) r := by
      funext e
      rw [vec7_sub, fwdEnd_eq φ (l e) (by rw [L.nseg]; exact L.len e)
        (by rw [L.nsegFwd, L.nsegBck, L.nseg]; exact hs), bckEnd_eq φ (l e) (by rw [L.nseg]; exact L.len e)
        (by rw [L.nsegFwd, L.nsegBck, L.nseg]; exact hs)]
    simp only [heq]
    refine dD.congr_deriv ?_
    have hu : (fun i => uVel th' ((l 0).nseg - 1 - i)) = fun i => uVel th' ((l 0).nseg - 1 - i) := rfl
    have hbr := bck_rows φ Φ (bckHalf (l 0)) xf' mf' (fun i => uVel th' ((l 0).nsegFwd + i))
      ((l 0).nsegBck * (tof' / (l 0).nseg)) r
    rw [hbn] at hbr
    have hrow : rowVal φ Φ (bckArgs (bckHalf (l 0))) (J xf') mf' (fun i => uVel th' ((l 0).nseg - 1 - i))
        ((l 0).nsegBck * (tof' / (l 0).nseg)) r = rowVal φ Φ (bckArgs (bckHalf (l 0))) (J xf') mf'
          (fun i => uVel th' ((l 0).nsegFwd + ((l 0).nsegBck - 1 - i)))
          ((l 0).nsegBck * (tof' / (l 0).nseg)) r := by
      unfold rowVal
      have : (bckArgs (bckHalf (l 0))).n = (l 0).nsegBck := by
        rw [← hbn]; unfold bckArgs GradArgs.n; simp
      rw [this]
      congr 2
      apply Finset.sum_congr rfl
      intro i hi
      rw [Finset.mem_range] at hi
      simp only
      rw [show (l 0).nseg - 1 - i = (l 0).nsegFwd + ((l 0).nsegBck - 1 - i) by omega]
    rw [hrow, sub_eq_add_neg, hbr]
    unfold rowVal
    rw [hfn]
    -- the flat arrays
    have g1 : ∀ j : Fin 6, (flatten 7 7 ((fwdHalf (l 0)).gradRvm φ Φ)).getD (7 * r + j) 0 =
        (fwdHalf (l 0)).gradRvm φ Φ r j := fun j => flatten_getD _ hr (by have := j.2; omega)
    have g2 : (flatten 7 7 ((fwdHalf (l 0)).gradRvm φ Φ)).getD (7 * r + 6) 0 =
        (fwdHalf (l 0)).gradRvm φ Φ r 6 := flatten_getD _ hr (by norm_num)
    have g3 : ∀ j : Fin 6, (flatten 7 7 (bckRvm φ Φ (bckHalf (l 0)))).getD (7 * r + j) 0 =
        bckRvm φ Φ (bckHalf (l 0)) r j := fun j => flatten_getD _ hr (by have := j.2; omega)
    have g4 : (flatten 7 7 (bckRvm φ Φ (bckHalf (l 0)))).getD (7 * r + 6) 0 =
        bckRvm φ Φ (bckHalf (l 0)) r 6 := flatten_getD _ hr (by norm_num)
    simp only [fwdHalf, bckHalf] at g1 g2 g3 g4
    simp only [fwdHalf, bckHalf]
    simp only [g1, g2, g3, g4]
    rw [sum_triples]
    have hsplit : (l 0).nseg = (l 0).nsegFwd + (l 0).nsegBck := hs.symm
    have hget : ∀ j, j < 3 * (l 0).nseg + 1 → ∀ x : ℕ → ℕ → ℝ,
        (flatten 7 ((l 0).nseg * 3 + 1) x).getD ((3 * (l 0).nseg + 1) * r + j) 0 = x r j := by
      intro j hj x
      rw [show 3 * (l 0).nseg = (l 0).nseg * 3 by ring] at hj ⊢
      exact flatten_getD _ hr hj
    have hsum : ∀ x : ℕ → ℕ → ℝ, ∑ i ∈ Finset.range (l 0).nseg, ∑ k : Fin 3,
        (flatten 7 ((l 0).nseg * 3 + 1) x).getD ((3 * (l 0).nseg + 1) * r + (3 * i + k)) 0 * th' (3 * i + k) =
        ∑ i ∈ Finset.range (l 0).nseg, ∑ k : Fin 3, x r (3 * i + k) * V3.get (uVel th' i) k := by
      intro x
      apply Finset.sum_congr rfl
      intro i hi
      rw [Finset.mem_range] at hi
      apply Finset.sum_congr rfl
      intro k _
      rw [hget _ (by have := k.2; omega)]
      unfold uVel V3.get
      fin_cases k <;> rfl
    rw [hsum, hget _ (by omega)]
    simp only [lt_irrefl, if_false, show 3 * (l 0).nseg = (l 0).nseg * 3 from Nat.mul_comm _ _,
      if_neg (show ¬ (l 0).nseg * 3 < (l 0).nsegFwd * 3 by omega)]
    have hfin : ∀ (a b : ℕ → ℝ) (c : ℝ), ∑ i ∈ Finset.range (l 0).nseg, ∑ k : Fin 3,
        (if 3 * i + (k : ℕ) < (l 0).nsegFwd * 3 then a (3 * i + k)
          else if 3 * i + (k : ℕ) < (l 0).nseg * 3 then b (3 * i + k - (l 0).nsegFwd * 3) else c) *
          V3.get (uVel th' i) k =
        ∑ i ∈ Finset.range (l 0).nsegFwd, ∑ k : Fin 3, a (3 * i + k) * V3.get (uVel th' i) k +
        ∑ i ∈ Finset.range (l 0).nsegBck, ∑ k : Fin 3, b (3 * i + k) *
          V3.get (uVel th' ((l 0).nsegFwd + i)) k := by
      intro a b c
      rw [hsplit, Finset.sum_range_add]
      congr 1
      · apply Finset.sum_congr rfl
        intro i hi
        rw [Finset.mem_range] at hi
        apply Finset.sum_congr rfl
        intro k _
        rw [if_pos (by have := k.2; omega)]
      · apply Finset.sum_congr rfl
        intro i hi
        rw [Finset.mem_range] at hi
        apply Finset.sum_congr rfl
        intro k _
        rw [if_neg (by have := k.2; omega), if_pos (by have := k.2; omega),
          show 3 * ((l 0).nsegFwd + i) + (k : ℕ) - (l 0).nsegFwd * 3 = 3 * i + k by omega]
    have hfin' := hfin
      (fun j => (halfArgs (l 0) ((triples (l 0).throttles).take (l 0).nsegFwd) (l 0).rvs (l 0).ms).grad φ Φ r j)
      (fun j => bckGrad φ Φ (halfArgs (l 0) ((triples (l 0).throttles).drop (l 0).nsegFwd) (l 0).rvf (l 0).mf) r j)
    rw [hfin', show (l 0).nseg - (l 0).nsegFwd = (l 0).nsegBck by omega,
      show (l 0).nsegFwd * 3 = 3 * (l 0).nsegFwd by ring, show (l 0).nsegBck * 3 = 3 * (l 0).nsegBck by ring]
    ring

/-! ## A case meeting the hypotheses -/

/-- Motion without forces. -/
def inertial (x : RV ℝ) (t : ℝ) : RV ℝ :=
  ⟨⟨x.r.x + t * x.v.x, x.r.y + t * x.v.y, x.r.z + t * x.v.z⟩, x.v⟩

/-- Its state transition matrix. -/
def inertialSTM (_ : RV ℝ) (t : ℝ) : Matrix (Fin 6) (Fin 6) ℝ :=
  !![1, 0, 0, t, 0, 0; 0, 1, 0, 0, t, 0; 0, 0, 1, 0, 0, t; 0, 0, 0, 1, 0, 0; 0, 0, 0, 0, 1, 0; 0, 0, 0, 0, 0, 1]

theorem inertial_reversible : Reversible inertial := by
  intro x t
  unfold inertial flipV
  simp

theorem inertial_flowDeriv (x : RV ℝ) (t : ℝ) : FlowDeriv inertial inertialSTM 0 x t := by
  intro X T x' t' h0 ht hX hT r
  have hv : (inertialSTM x t).mulVec x' = ![x' 0 + t * x' 3, x' 1 + t * x' 4, x' 2 + t * x' 5, x' 3, x' 4, x' 5] := by
    funext i
    unfold inertialSTM Matrix.mulVec dotProduct
    fin_cases i <;> simp [Fin.sum_univ_six]
  rw [hv]
  have e0 : vec (X 0) = vec x := by rw [h0]
  have pos : ∀ (i j : Fin 6), HasDerivAt (fun e => vec (X e) i + T e * vec (X e) j)
      (x' i + t * x' j + t' * vec x j) 0 := by
    intro i j
    refine ((hX i).add (hT.mul (hX j))).congr_deriv ?_
    rw [e0, ht]; ring
  unfold dyn
  fin_cases r
  · refine (pos 0 3).congr_deriv ?_; simp [vec, inertial]
  · refine (pos 1 4).congr_deriv ?_; simp [vec, inertial]
  · refine (pos 2 5).congr_deriv ?_; simp [vec, inertial]
  · refine (hX 3).congr_deriv ?_; simp
  · refine (hX 4).congr_deriv ?_; simp
  · refine (hX 5).congr_deriv ?_; simp

/-- The hypotheses of C47 are met by a two-segment leg in free space, one segment forward and one
backward, when the first throttle component and the time of flight vary. -/
example : ∃ (l : ℝ → Leg ℝ) (th' : ℕ → ℝ), LegCurve l 0 0 0 0 th' 1 ∧ th' 0 = 1 ∧ Regular (l 0) ∧
    (l 0).nsegFwd = 1 ∧ (l 0).nsegBck = 1 ∧ Reversible inertial ∧
    ∀ x t, FlowDeriv inertial inertialSTM (l 0).mu x t := by
  refine ⟨fun e => { rvs := ⟨⟨1, 0, 0⟩, ⟨0, 1, 0⟩⟩, ms := 1, throttles := [1 + e, 0, 0, 0, 1, 0],
                      rvf := ⟨⟨2, 0, 0⟩, ⟨0, 1, 0⟩⟩, mf := 1, tof := 1 + e, maxThrust := 1, isp := 1,
                      mu := 0, cut := 1 / 2, nseg := 2, nsegFwd := 1, nsegBck := 1 },
    fun j => if j = 0 then 1 else 0, ?_, if_pos rfl, ?_, rfl, rfl, inertial_reversible,
    fun x t => inertial_flowDeriv x t⟩
  · have hid : HasDerivAt (fun e : ℝ => 1 + e) 1 0 := (hasDerivAt_id (0 : ℝ)).const_add 1
    have hc : ∀ c : ℝ, HasDerivAt (fun _ : ℝ => c) 0 0 := fun c => hasDerivAt_const _ _
    refine ⟨fun _ => rfl, fun _ => rfl, fun _ => rfl, fun _ => rfl, fun _ => rfl, fun _ => rfl, fun _ => rfl,
      fun r => hc (vec ⟨⟨1, 0, 0⟩, ⟨0, 1, 0⟩⟩ r), fun r => hc (vec ⟨⟨2, 0, 0⟩, ⟨0, 1, 0⟩⟩ r), hc 1, hc 1, ?_, hid⟩
    intro j hj
    change j < 6 at hj
    interval_cases j
    · exact hid
    all_goals exact hc _
  · refine ⟨by norm_num, rfl, by norm_num, by norm_num, by norm_num, by norm_num, ?_⟩
    intro u hu
    simp only [triples, List.mem_cons, List.not_mem_nil, or_false] at hu
    rcases hu with rfl | rfl
    · intro h; have := congrArg V3.x h; norm_num at this
    · intro h; have := congrArg V3.y h; norm_num at this

end Kep3.SF
