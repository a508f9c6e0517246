import Verif.HF.Lemmas
import Mathlib.Data.Real.Basic
import Mathlib.Tactic.FieldSimp

/-!
# `sims_flanagan_hf::get_state_history` (C50)
-/

namespace Kep3.HF

open Kep3
open Kep3.SF (usub triple)

section model
variable {F : Type} (E : Env F)

/-- The time grid, src/leg/sims_flanagan_hf.cpp:769-777: the vector after `n` rounds of
`timestep += step; push_back(timestep)`, and the current `timestep`. -/
def timeGrid (step : F) : ℕ → List F × F
  | 0 => ([E.ofNat 0], E.ofNat 0)
  | n + 1 =>
    let t := E.add (timeGrid step n).2 step
    ((timeGrid step n).1 ++ [t], t)

/-- `std::copy` of the elements `[a, b)` of a vector into a buffer of `cap` elements: undefined
behaviour when the range leaves the vector or does not fit. -/
def slice (g : List F) (a b cap : ℕ) : Res (List F) :=
  if a ≤ b ∧ b ≤ g.length ∧ b - a ≤ cap then .ok ((g.drop a).take (b - a)) else .ub

/-- Working data of `get_state_history`: the integrator and the output vector. -/
structure HistSt (F : Type) where
  ta : Integ F
  out : List (Option (List (St F)))

/-- Setting the time to the first grid point, propagation over the grid, and storing the states as
entry `j`, src/leg/sims_flanagan_hf.cpp:799-806 and 826-833. After `propagate_grid` the integrator is at
the last grid time. -/
def gridSeg (ts : List F) (j : ℕ) : Mut (HistSt F) Unit := fun h =>
  match ts.head?, ts.getLast? with
  | some t0, some t1 =>
    let ta := { h.ta with time := t0 }
    match E.grid ta.tol ta.mu ta.veff ta.u ta.time ta.state ts with
    | some xs =>
      match xs.getLast? with
      | some x =>
        match setAt h.out j xs with
        | .ok o => (.ok (), { ta := { ta with time := t1, state := x }, out := o })
        | _ => (.ub, { h with ta := ta })
      | none => (.ub, { h with ta := ta })
    | none => (.err .domainError, { h with ta := ta })
  | _, _ => (.err .outOfRange, h)

/-- One forward segment, src/leg/sims_flanagan_hf.cpp:789-807. -/
def histFwd (l : Leg F) (g : List F) (gps : ℕ) (i : ℕ) : Mut (HistSt F) Unit := do
  let u ← Mut.call (thrustAt l.thrusts (i * 3 % 2 ^ 32))
  Mut.assign fun h => { h with ta := { h.ta with u := u } }
  let ts ← Mut.call (slice g (i * usub gps 1 % 2 ^ 32) (((i + 1) * usub gps 1 + 1) % 2 ^ 32) gps)
  gridSeg E ts i

/-- One backward segment, src/leg/sims_flanagan_hf.cpp:816-834. -/
def histBck (l : Leg F) (g : List F) (gps : ℕ) (i : ℕ) : Mut (HistSt F) Unit := do
  let u ← Mut.call (thrustAt l.thrusts (usub l.nseg (i + 1) * 3 % 2 ^ 32))
  Mut.assign fun h => { h with ta := { h.ta with u := u } }
  let ts ← Mut.call (slice g (usub l.nseg (i + 1) * usub gps 1 % 2 ^ 32)
    ((usub l.nseg i * usub gps 1 + 1) % 2 ^ 32) gps)
  gridSeg E ts.reverse (usub (usub l.nseg 1) i)

/-- The grid step, src/leg/sims_flanagan_hf.cpp:768 and 775. -/
def histStep (l : Leg F) (gps : ℕ) : F := E.div (l.dt E) (E.ofNat (usub gps 1))

/-- `get_state_history`, src/leg/sims_flanagan_hf.cpp:765-837, acting on `m_tas`. The number of rounds of
the first loop is the unsigned `gps * nseg - 2`. -/
def historyOn (l : Leg F) (gps : ℕ) : Mut (Integ F) (List (Option (List (St F)))) := fun ta =>
  let g := (timeGrid E (histStep E l gps) (usub (gps * l.nseg % 2 ^ 32) 2)).1
  let loops : Mut (HistSt F) Unit := do
    Mut.assign fun h => { h with ta := { h.ta with time := E.ofNat 0, state := l.rvms } }
    forLoop l.nsegFwd (histFwd E l g gps)
    Mut.assign fun h => { h with ta := { h.ta with time := l.tof, state := l.rvmf } }
    forLoop l.nsegBck (histBck E l g gps)
  match loops ⟨ta, List.replicate l.nseg none⟩ with
  | (.ok _, h) => (.ok h.out, h.ta)
  | (.err e, h) => (.err e, h.ta)
  | (.ub, h) => (.ub, h.ta)

/-- `get_state_history`. -/
def stateHistory (gps : ℕ) : Mut (Leg F) (List (Option (List (St F)))) := fun l =>
  let (r, ta) := historyOn E l gps l.tas
  (r, { l with tas := ta })

end model

theorem stateHistory_fst {F : Type} (E : Env F) (gps : ℕ) (l : Leg F) :
    (stateHistory E gps l).1 = (historyOn E l gps l.tas).1 := rfl

theorem timeGrid_length {F : Type} (E : Env F) (s : F) (n : ℕ) : (timeGrid E s n).1.length = n + 1 := by
  induction n with
  | zero => rfl
  | succ n ih => show ((timeGrid E s n).1 ++ [_]).length = _; simp [ih]

/-! ## Specification -/

/-- Real arithmetic, and `propagate_grid` is exact: it returns the states of a flow `φ mu veff u` at the
grid times (idealisation of the Taylor integration, which never stops early). -/
structure ExactGrid (E : Env ℝ) (φ : ℝ → ℝ → V3 ℝ → ℝ → St ℝ → St ℝ) : Prop where
  add : ∀ a b, E.add a b = a + b
  sub : ∀ a b, E.sub a b = a - b
  mul : ∀ a b, E.mul a b = a * b
  div : ∀ a b, E.div a b = a / b
  ofNat : ∀ n, E.ofNat n = n
  grid : ∀ tol mu veff u t0 x ts,
    E.grid tol mu veff u t0 x ts = some (ts.map fun t => φ mu veff u (t - t0) x)

/-- The thrust of a segment. -/
def Leg.thrust (l : Leg ℝ) (i : ℕ) : V3 ℝ :=
  ⟨l.thrusts.getD (3 * i) 0, l.thrusts.getD (3 * i + 1) 0, l.thrusts.getD (3 * i + 2) 0⟩

/-- State at the start of forward segment `i`: flown from the initial state through the segments before. -/
noncomputable def Leg.fwdState (φ : ℝ → ℝ → V3 ℝ → ℝ → St ℝ → St ℝ) (l : Leg ℝ) : ℕ → St ℝ
  | 0 => l.rvms
  | i + 1 => φ l.tas.mu l.tas.veff (l.thrust i) (l.tof / l.nseg) (l.fwdState φ i)

/-- State at the end of the `k`-th segment from the end: flown backwards from the final state. -/
noncomputable def Leg.bckState (φ : ℝ → ℝ → V3 ℝ → ℝ → St ℝ → St ℝ) (l : Leg ℝ) : ℕ → St ℝ
  | 0 => l.rvmf
  | k + 1 => φ l.tas.mu l.tas.veff (l.thrust (l.nseg - 1 - k)) (-(l.tof / l.nseg)) (l.bckState φ k)

/-- `gps` states on the equally spaced grid of segment `i`, from its start (forward segments) or its end
(backward segments). -/
noncomputable def Leg.historySpec (φ : ℝ → ℝ → V3 ℝ → ℝ → St ℝ → St ℝ) (l : Leg ℝ) (gps i : ℕ) : List (St ℝ) :=
  (List.range gps).map fun (j : ℕ) =>
    if i < l.nsegFwd then
      φ l.tas.mu l.tas.veff (l.thrust i) ((j : ℝ) / (gps - 1) * (l.tof / l.nseg)) (l.fwdState φ i)
    else
      φ l.tas.mu l.tas.veff (l.thrust i) (-((j : ℝ) / (gps - 1) * (l.tof / l.nseg)))
        (l.bckState φ (l.nseg - 1 - i))

/-! ## Proofs -/

theorem timeGrid_exact {E : Env ℝ} {φ} (hE : ExactGrid E φ) (s : ℝ) (n : ℕ) :
    (timeGrid E s n).1 = (List.range (n + 1)).map (fun k : ℕ => (k : ℝ) * s) ∧ (timeGrid E s n).2 = n * s := by
  induction n with
  | zero => simp [timeGrid, hE.ofNat]
  | succ n ih =>
    have h2 : (timeGrid E s (n + 1)).2 = ((n + 1 : ℕ) : ℝ) * s := by
      show E.add (timeGrid E s n).2 s = _
      rw [hE.add, ih.2]; push_cast; ring
    refine ⟨?_, h2⟩
    show (timeGrid E s n).1 ++ [(timeGrid E s (n + 1)).2] = _
    rw [ih.1, h2, List.range_succ (n := n + 1), List.map_append]
    rfl

theorem slice_map {f : ℕ → ℝ} {n a c cap : ℕ} (h : a + c ≤ n) (hc : c ≤ cap) :
    slice ((List.range n).map f) a (a + c) cap = .ok ((List.range c).map fun j => f (a + j)) := by
  unfold slice
  rw [if_pos ⟨by omega, by simpa using h, by omega⟩]
  congr 1
  apply List.ext_getElem
  · simp; omega
  · intro k h1 h2
    simp

theorem thrustAt_thrust {l : Leg ℝ} {i : ℕ} (h : 3 * i + 2 < l.thrusts.length) :
    thrustAt l.thrusts (i * 3) = .ok (l.thrust i) := by
  unfold thrustAt triple Leg.thrust
  rw [mul_comm i 3]
  simp only [List.getD_eq_getElem?_getD]
  rw [List.getElem?_eq_getElem (by omega), List.getElem?_eq_getElem (by omega), List.getElem?_eq_getElem h]
  rfl

section
variable {E : Env ℝ} {φ : ℝ → ℝ → V3 ℝ → ℝ → St ℝ → St ℝ}

/-- One call of `propagate_grid` on times `t0 + c j`. -/
theorem gridSeg_exact (hE : ExactGrid E φ) {h : HistSt ℝ} {gps : ℕ} (hg : 2 ≤ gps) (f : ℕ → ℝ) {j : ℕ}
    (hj : j < h.out.length) :
    gridSeg E ((List.range gps).map f) j h = (.ok (),
      { ta := { h.ta with time := f (gps - 1), state := φ h.ta.mu h.ta.veff h.ta.u (f (gps - 1) - f 0) h.ta.state },
        out := h.out.set j (some ((List.range gps).map fun k => φ h.ta.mu h.ta.veff h.ta.u (f k - f 0) h.ta.state)) }) := by
  obtain ⟨n, rfl⟩ : ∃ n, gps = n + 1 := ⟨gps - 1, by omega⟩
  have h1 : ((List.range (n + 1)).map f).head? = some (f 0) := by
    rw [List.range_succ_eq_map]; rfl
  have h2 : ∀ {β : Type} (g : ℕ → β), ((List.range (n + 1)).map g).getLast? = some (g n) := by
    intro β g; rw [List.range_succ, List.map_append]; simp
  unfold gridSeg
  simp only [h1, h2, hE.grid, List.map_map]
  unfold setAt
  simp only [if_pos hj, Nat.add_sub_cancel, Function.comp_def]

/-- **C50, partial.** For at least two segments and at least two grid points per segment,
`get_state_history` reads and writes only existing elements and returns for each segment the
requested number of states, at equally spaced times covering the segment, flown from the start of the
leg (forward segments) or backwards from its end (backward segments). The sizes must fit in 32 bits.
Missing for the full claim: legs with one segment, for which it is false (`C50_one_segment_ub`). -/
theorem C50_history_partial (hE : ExactGrid E φ) (l : Leg ℝ) (gps : ℕ)
    (hn : 2 ≤ l.nseg) (hg : 2 ≤ gps) (hfit : gps * l.nseg < 2 ^ 32) (hfit3 : 3 * l.nseg < 2 ^ 32)
    (hsum : l.nsegFwd + l.nsegBck = l.nseg) (hthr : l.thrusts.length = 3 * l.nseg) :
    (stateHistory E gps l).1 =
      .ok ((List.range l.nseg).map fun i => some (l.historySpec φ gps i)) := by
  have hn0 : (l.nseg : ℝ) ≠ 0 := by have : l.nseg ≠ 0 := by omega
                                    exact_mod_cast this
  have hg1 : usub gps 1 = gps - 1 := by
    have : gps ≤ gps * l.nseg := Nat.le_mul_of_pos_right _ (by omega)
    exact SF.usub_le (by omega) (by omega)
  have hgr : ((gps - 1 : ℕ) : ℝ) = (gps : ℝ) - 1 := by rw [Nat.cast_sub (by omega)]; simp
  have hgne : (gps : ℝ) - 1 ≠ 0 := by
    rw [← hgr]; have : gps - 1 ≠ 0 := by omega
    exact_mod_cast this
  set dt := l.tof / l.nseg with hdt
  have hstep : histStep E l gps = dt / (gps - 1) := by
    unfold histStep Leg.dt
    rw [hE.div, hE.div, hE.ofNat, hE.ofNat, hg1, hgr]
  set s := dt / ((gps : ℝ) - 1) with hs
  have hN : usub (gps * l.nseg % 2 ^ 32) 2 = gps * l.nseg - 2 := by
    rw [Nat.mod_eq_of_lt hfit]
    have : 2 * 2 ≤ gps * l.nseg := Nat.mul_le_mul hg hn
    exact SF.usub_le hfit (by omega)
  set N := gps * l.nseg - 2 with hNdef
  have hgrid : (timeGrid E s N).1 = (List.range (N + 1)).map (fun k : ℕ => (k : ℝ) * s) :=
    (timeGrid_exact hE s N).1
  have hNs : (gps - 1) * l.nseg + 1 ≤ N + 1 := by
    obtain ⟨a, rfl⟩ : ∃ a, gps = a + 2 := ⟨gps - 2, by omega⟩
    have h4 : (a + 2) * l.nseg = a * l.nseg + 2 * l.nseg := by ring
    have : (a + 2 - 1) * l.nseg = a * l.nseg + l.nseg := by
      rw [show a + 2 - 1 = a + 1 by omega]; ring
    omega
  -- indices of segment i
  have idx : ∀ i < l.nseg, i * (gps - 1) % 2 ^ 32 = i * (gps - 1) ∧
      ((i + 1) * (gps - 1) + 1) % 2 ^ 32 = i * (gps - 1) + gps ∧ i * (gps - 1) + gps ≤ N + 1 := by
    intro i hi
    have h1 : (i + 1) * (gps - 1) ≤ l.nseg * (gps - 1) := Nat.mul_le_mul_right _ hi
    have h2 : (i + 1) * (gps - 1) = i * (gps - 1) + (gps - 1) := by ring
    have h3 : l.nseg * (gps - 1) = (gps - 1) * l.nseg := Nat.mul_comm _ _
    have h4 : N + 1 < 2 ^ 32 := by omega
    refine ⟨Nat.mod_eq_of_lt (by omega), ?_, by omega⟩
    rw [Nat.mod_eq_of_lt (by omega)]; omega
  have slc : ∀ i < l.nseg, slice (timeGrid E s N).1 (i * (gps - 1) % 2 ^ 32) (((i + 1) * (gps - 1) + 1) % 2 ^ 32) gps =
      .ok ((List.range gps).map fun j : ℕ => ((i * (gps - 1) + j : ℕ) : ℝ) * s) := by
    intro i hi
    obtain ⟨h1, h2, h3⟩ := idx i hi
    rw [h1, h2, hgrid, slice_map h3 le_rfl]
  have hdts : ∀ j : ℕ, (j : ℝ) * s = (j : ℝ) / (gps - 1) * dt := by
    intro j; rw [hs]; ring
  rw [stateHistory_fst]
  unfold historyOn
  simp only [hstep, hN]
  -- forward loop
  let Ifwd : ℕ → HistSt ℝ → Prop := fun i h => h.ta.Same l.tas ∧ h.ta.state = l.fwdState φ i ∧
    h.out = (List.range l.nseg).map fun k => if k < i then some (l.historySpec φ gps k) else none
  obtain ⟨h1, e1, i1⟩ := forLoop_inv (histFwd E l (timeGrid E s N).1 gps) l.nsegFwd
    { ta := { l.tas with time := E.ofNat 0, state := l.rvms }, out := List.replicate l.nseg none } Ifwd
    (by
      intro i hi h ⟨hsame, hst, hout⟩
      have hin : i < l.nseg := by omega
      have hth := thrustAt_thrust (l := l) (i := i) (by omega)
      have hrun : histFwd E l (timeGrid E s N).1 gps i h =
          gridSeg E ((List.range gps).map fun j : ℕ => ((i * (gps - 1) + j : ℕ) : ℝ) * s) i
            { h with ta := { h.ta with u := l.thrust i } } := by
        unfold histFwd
        rw [Nat.mod_eq_of_lt (by omega), hth, hg1, slc i hin]
        rfl
      rw [gridSeg_exact hE hg _ (by simp [hout, hin])] at hrun
      refine ⟨_, hrun, ?_⟩
      · have hd : ∀ j : ℕ, ((i * (gps - 1) + j : ℕ) : ℝ) * s - ((i * (gps - 1) + 0 : ℕ) : ℝ) * s =
            (j : ℝ) / (gps - 1) * dt := by
          intro j; rw [← hdts]; push_cast; ring
        refine ⟨hsame, ?_, ?_⟩
        · show φ h.ta.mu h.ta.veff (l.thrust i) _ h.ta.state = φ l.tas.mu l.tas.veff (l.thrust i) dt (l.fwdState φ i)
          rw [hd, hsame.2.1, hsame.2.2, hst, hgr, div_self hgne, one_mul]
        · show h.out.set i _ = _
          rw [hout]
          apply List.ext_getElem
          · simp
          · intro k k1 k2
            simp only [List.length_map, List.length_range, List.length_set] at k1 k2
            rw [List.getElem_set]
            simp only [List.getElem_map, List.getElem_range]
            by_cases hk : i = k
            · subst hk
              rw [if_pos rfl, if_pos (by omega)]
              refine congrArg some ?_
              unfold Leg.historySpec
              refine List.map_congr_left fun j _ => ?_
              rw [if_pos hi]
              show φ h.ta.mu h.ta.veff (l.thrust i) _ h.ta.state = _
              rw [hd, hsame.2.1, hsame.2.2, hst]
            · rw [if_neg hk]
              by_cases hk2 : k < i
              · rw [if_pos hk2, if_pos (by omega)]
              · rw [if_neg hk2, if_neg (by omega)])
    ⟨⟨rfl, rfl, rfl⟩, rfl, by
      apply List.ext_getElem
      · simp
      · intro k k1 k2; simp⟩
  -- backward loop
  let Ibck : ℕ → HistSt ℝ → Prop := fun i h => h.ta.Same l.tas ∧ h.ta.state = l.bckState φ i ∧
    h.out = (List.range l.nseg).map fun k =>
      if k < l.nsegFwd ∨ l.nseg - i ≤ k then some (l.historySpec φ gps k) else none
  obtain ⟨h2, e2, i2⟩ := forLoop_inv (histBck E l (timeGrid E s N).1 gps) l.nsegBck
    { h1 with ta := { h1.ta with time := l.tof, state := l.rvmf } } Ibck
    (by
      intro i hi h ⟨hsame, hst, hout⟩
      have hu1 : usub l.nseg (i + 1) = l.nseg - (i + 1) := SF.usub_le (by omega) (by omega)
      have hu0 : usub l.nseg i = l.nseg - (i + 1) + 1 := by rw [SF.usub_le (by omega) (by omega)]; omega
      have hu2 : usub (usub l.nseg 1) i = l.nseg - (i + 1) := by
        rw [SF.usub_le (n := l.nseg) (by omega) (by omega), SF.usub_le (by omega) (by omega)]; omega
      set p := l.nseg - (i + 1) with hp
      have hth := thrustAt_thrust (l := l) (i := p) (by omega)
      have hrev : ((List.range gps).map fun j : ℕ => ((p * (gps - 1) + j : ℕ) : ℝ) * s).reverse =
          (List.range gps).map fun j : ℕ => ((p * (gps - 1) + (gps - 1 - j) : ℕ) : ℝ) * s := by
        apply List.ext_getElem
        · simp
        · intro k k1 k2
          simp only [List.length_map, List.length_range] at k2
          simp only [List.getElem_reverse, List.getElem_map, List.getElem_range, List.length_map, List.length_range]
      have hrun : histBck E l (timeGrid E s N).1 gps i h =
          gridSeg E ((List.range gps).map fun j : ℕ => ((p * (gps - 1) + (gps - 1 - j) : ℕ) : ℝ) * s) p
            { h with ta := { h.ta with u := l.thrust p } } := by
        unfold histBck
        rw [hu1, hu0, hu2, Nat.mod_eq_of_lt (by omega), hth, hg1, slc p (by omega), ← hrev]
        rfl
      rw [gridSeg_exact hE hg _ (by simp [hout]; omega)] at hrun
      refine ⟨_, hrun, ?_⟩
      · have hd : ∀ j : ℕ, j ≤ gps - 1 →
            ((p * (gps - 1) + (gps - 1 - j) : ℕ) : ℝ) * s - ((p * (gps - 1) + (gps - 1 - 0) : ℕ) : ℝ) * s =
            -((j : ℝ) / (gps - 1) * dt) := by
          intro j hj; rw [← hdts, Nat.sub_zero, Nat.cast_add, Nat.cast_add, Nat.cast_sub hj]; ring
        refine ⟨hsame, ?_, ?_⟩
        · show φ h.ta.mu h.ta.veff (l.thrust p) _ h.ta.state =
            φ l.tas.mu l.tas.veff (l.thrust (l.nseg - 1 - i)) (-dt) (l.bckState φ i)
          rw [hd _ le_rfl, hsame.2.1, hsame.2.2, hst, hgr, div_self hgne, one_mul,
            show l.nseg - 1 - i = p by omega]
        · show h.out.set p _ = _
          rw [hout]
          apply List.ext_getElem
          · simp
          · intro k k1 k2
            simp only [List.length_map, List.length_range, List.length_set] at k1 k2
            rw [List.getElem_set]
            simp only [List.getElem_map, List.getElem_range]
            by_cases hk : p = k
            · subst hk
              rw [if_pos rfl, if_pos (by omega)]
              refine congrArg some ?_
              unfold Leg.historySpec
              refine List.map_congr_left fun j hj => ?_
              rw [if_neg (by omega)]
              show φ h.ta.mu h.ta.veff (l.thrust p) _ h.ta.state = _
              rw [List.mem_range] at hj
              rw [hd _ (by omega), hsame.2.1, hsame.2.2, hst, show l.nseg - 1 - p = i by omega]
            · rw [if_neg hk]
              by_cases hk2 : k < l.nsegFwd ∨ l.nseg - i ≤ k
              · rw [if_pos hk2, if_pos (by omega)]
              · rw [if_neg hk2, if_neg (by omega)])
    ⟨i1.1, rfl, by
      show h1.out = _
      rw [i1.2.2]
      refine List.map_congr_left fun k hk => ?_
      rw [List.mem_range] at hk
      by_cases hk2 : k < l.nsegFwd
      · rw [if_pos hk2, if_pos (Or.inl hk2)]
      · rw [if_neg hk2, if_neg (by omega)]⟩
  simp only [Mut.assign_bind_run]
  rw [Mut.bind_run, e1]
  simp only [Mut.assign_bind_run]
  rw [e2]
  show Res.ok h2.out = _
  rw [i2.2.2]
  refine congrArg Res.ok (List.map_congr_left fun k hk => ?_)
  rw [List.mem_range] at hk
  rw [if_pos (by omega)]

end

/-- **C50 fails for one segment.** Whatever the integrator and the arithmetic, with one segment
`get_state_history` reads one element past the end of the time grid: undefined behaviour for every
number of grid points of at least two. -/
theorem C50_one_segment_ub {F : Type} (E : Env F) (l : Leg F) (gps : ℕ) (hg : 2 ≤ gps) (hfit : gps < 2 ^ 32 - 1)
    (hn : l.nseg = 1) (hsum : l.nsegFwd + l.nsegBck = 1) (hthr : l.thrusts.length = 3) :
    (stateHistory E gps l).1 = .ub := by
  rw [stateHistory_fst]
  unfold historyOn
  have hu : usub (gps * l.nseg % 2 ^ 32) 2 = gps - 2 := by
    rw [hn, mul_one, Nat.mod_eq_of_lt (by omega)]; exact SF.usub_le (by omega) (by omega)
  have hg1 : usub gps 1 = gps - 1 := SF.usub_le (by omega) (by omega)
  simp only [hu]
  have hlen := timeGrid_length E (histStep E l gps) (gps - 2)
  revert hlen
  generalize (timeGrid E (histStep E l gps) (gps - 2)).1 = g
  intro hlen
  have hsl : slice g 0 gps gps = .ub := by
    unfold slice; rw [if_neg (by omega)]
  have hthr0 : ∃ u, thrustAt l.thrusts 0 = .ok u := by
    unfold thrustAt triple
    rw [List.getElem?_eq_getElem (by omega), List.getElem?_eq_getElem (by omega),
      List.getElem?_eq_getElem (by omega)]
    exact ⟨_, rfl⟩
  obtain ⟨u, hu0⟩ := hthr0
  have hfwd : ∀ h : HistSt F, ∃ h', histFwd E l g gps 0 h = (.ub, h') := by
    intro h
    refine ⟨{ h with ta := { h.ta with u := u } }, ?_⟩
    unfold histFwd
    rw [show 0 * 3 % 2 ^ 32 = 0 by norm_num, hu0, hg1, show 0 * (gps - 1) % 2 ^ 32 = 0 by simp,
      show ((0 + 1) * (gps - 1) + 1) % 2 ^ 32 = gps by rw [Nat.mod_eq_of_lt (by omega)]; omega, hsl]
    rfl
  have hbck : ∀ h : HistSt F, ∃ h', histBck E l g gps 0 h = (.ub, h') := by
    intro h
    refine ⟨{ h with ta := { h.ta with u := u } }, ?_⟩
    unfold histBck
    rw [hn, show usub 1 (0 + 1) = 0 by rfl, show usub 1 0 = 1 by rfl]
    rw [show 0 * 3 % 2 ^ 32 = 0 by norm_num, hu0, hg1, show 0 * (gps - 1) % 2 ^ 32 = 0 by simp,
      show (1 * (gps - 1) + 1) % 2 ^ 32 = gps by rw [Nat.mod_eq_of_lt (by omega)]; omega, hsl]
    rfl
  rcases Nat.eq_zero_or_pos l.nsegFwd with h0 | h0
  · have hb : l.nsegBck = 1 := by omega
    rw [h0, hb]
    simp only [Mut.assign_bind_run]
    rw [Mut.bind_run, forLoop_zero]
    simp only [Mut.assign_bind_run]
    rw [forLoop_succ, Mut.bind_run, forLoop_zero]
    obtain ⟨h', e'⟩ := hbck { ta := { l.tas with time := l.tof, state := l.rvmf }, out := List.replicate l.nseg none }
    simp only [e']
  · have hb : l.nsegFwd = 1 := by omega
    rw [hb]
    simp only [Mut.assign_bind_run]
    rw [Mut.bind_run, forLoop_succ, Mut.bind_run, forLoop_zero]
    obtain ⟨h', e'⟩ := hfwd { ta := { l.tas with time := E.ofNat 0, state := l.rvms }, out := List.replicate l.nseg none }
    simp only [e']

/-! ## Examples -/

/-- An environment with real arithmetic in which a state moves on a straight line. -/
noncomputable def driftEnv : Env ℝ where
  add a b := a + b
  sub a b := a - b
  mul a b := a * b
  div a b := a / b
  ofNat n := n
  g0 := 9.80665
  prop _ _ _ _ t0 x t1 := some ⟨⟨x.rv.r + (t1 - t0) • x.rv.v, x.rv.v⟩, x.m⟩
  vprop _ _ _ _ _ _ _ := none
  grid _ _ _ _ t0 x ts := some (ts.map fun t => ⟨⟨x.rv.r + (t - t0) • x.rv.v, x.rv.v⟩, x.m⟩)
  rhs _ _ _ x := x
  con u := u.x * u.x + u.y * u.y + u.z * u.z - 1

theorem driftEnv_exact :
    ExactGrid driftEnv (fun _ _ _ t x => ⟨⟨x.rv.r + t • x.rv.v, x.rv.v⟩, x.m⟩) :=
  ⟨fun _ _ => rfl, fun _ _ => rfl, fun _ _ => rfl, fun _ _ => rfl, fun _ => rfl,
    fun _ _ _ _ _ _ _ => rfl⟩

/-- A leg with two segments meets the hypotheses of `C50_history_partial`, with three points per segment;
the last entry of the first segment is the state half-way. -/
example (s f : St ℝ) (ta : Integ ℝ) :
    let l : Leg ℝ := ⟨s, [1, 0, 0, 0, 1, 0], [1, 0, 0, 0, 1, 0], f, 4, 1, 1, 1, 1 / 2, 1, 2, 1, 1, ta, ta⟩
    ∃ a b, (stateHistory driftEnv 3 l).1 = .ok [some a, some b] ∧
      a[2]? = some ⟨⟨s.rv.r + (2 : ℝ) • s.rv.v, s.rv.v⟩, s.m⟩ ∧
      b[1]? = some ⟨⟨f.rv.r + (-1 : ℝ) • f.rv.v, f.rv.v⟩, f.m⟩ := by
  intro l
  refine ⟨_, _, C50_history_partial driftEnv_exact l 3 (le_refl 2) (by decide) (show 3 * 2 < 2 ^ 32 by decide)
    (show 3 * 2 < 2 ^ 32 by decide) rfl rfl, ?_, ?_⟩ <;>
  · simp [Leg.historySpec, List.range_succ, Leg.fwdState, Leg.bckState, l]
    norm_num

end Kep3.HF
