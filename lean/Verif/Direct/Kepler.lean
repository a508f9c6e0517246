import Verif.Direct.Props55
import Verif.Direct.Props56
import Verif.SF.Kepler
import Verif.Planet.Props36

/-!
# C55, C56: the direct problems with the propagator of the code and Keplerian planets
-/

namespace Kep3.Direct
open Real SF SFSpec Filter Topology

namespace P2P
variable {p : P2P}

/-- **C55** for the propagator of the code: when the states at which the leg calls it are in range, the gradient returned is the
derivative of the fitness, entry by entry of the sparsity. -/
theorem C55_kepler {sv : Solver} (hsv : sv.Sound) (hq : sv.Quick) (o : p.Ok) (hmu : 0 < p.leg.mu) {x : List ℝ}
    (hx : x.length = 2 + 3 * p.nseg) (hmf : 0 < x.getD 0 0) (htof : 0 < x.getD (x.length - 1) 0)
    (hth : ∀ u ∈ triples (slice 1 (x.length - 1) x), u ≠ 0) {l : Leg ℝ} (hl : p.setLeg x = .ok l) (hv : Visits sv l) :
    computeMismatch (SF.lagr sv l.mu) l = computeMismatch (fun y t => some (lagrTot sv p.leg.mu y t)) l ∧
    ∃ grad, (p.gradient (lagrTot sv p.leg.mu) (lagrStm sv p.leg.mu) x).run = .ok (some grad) ∧
      IsJac (p.fitness (lagrTot sv p.leg.mu)) grad p.sparsity (1 + nec + p.nic) x := by
  have hle : l = p.legOf x := by
    have := hl
    rw [setLeg_eq o hx htof.le] at this
    exact (Res.ok.inj this).symm
  have hm : l.mu = p.leg.mu := by rw [hle]; rfl
  have hfl : ⌊(p.nseg : ℝ) * p.leg.cut⌋₊ ≤ p.nseg := by
    have : (p.nseg : ℝ) * p.leg.cut ≤ p.nseg := by
      have h1 : (0 : ℝ) ≤ p.nseg := by positivity
      have := o.cut.2
      nlinarith
    exact (Nat.floor_le_floor this).trans (by simp)
  constructor
  · rw [← hm]
    refine mismatch_lagr hsv hq l (by rw [hm]; exact hmu) ?_ ?_ ?_ ?_ ?_ ?_ hv <;> rw [hle]
    · exact slice_length (m := 3 * p.nseg) (by rw [hx]; omega)
    · simp only [legOf]; omega
    · exact (mul_pos htof DAY2SEC_pos).le
    · exact o.thrust
    · exact o.ms
    · exact hmf
  · refine C55_gradient (lagrTot_reversible hsv hq hmu) o hx hmf htof hth hl (fun i hi => ?_) (fun i hi => ?_) <;> rw [← hm]
    · exact lagr_flowDeriv hsv hq (by rw [hm]; exact hmu) (hv.fwd i hi)
    · exact lagr_flowDeriv hsv hq (by rw [hm]; exact hmu) (hv.bck i hi)

/-- The leg around a circle as a problem. -/
noncomputable def circleP : P2P :=
  { leg := { circleLeg 0 with throttles := [], nseg := 0, nsegFwd := 0, nsegBck := 0, tof := 0, mf := 0 }
    nseg := 2, tofBounds := (0, 1), mfBounds := (1 / 2, 1), massScaling := 2, rScaling := 3, vScaling := 5 }

/-- The hypotheses of `C55_kepler` are met. -/
example {sv : Solver} (hsv : sv.Sound) (hq : sv.Quick) :
    ∃ x l, circleP.Ok ∧ 0 < circleP.leg.mu ∧ x.length = 2 + 3 * circleP.nseg ∧ 0 < x.getD 0 0 ∧
      0 < x.getD (x.length - 1) 0 ∧ (∀ u ∈ triples (slice 1 (x.length - 1) x), u ≠ 0) ∧ circleP.setLeg x = .ok l ∧ Visits sv l := by
  have hpi := Real.pi_pos
  have o : circleP.Ok := by
    refine ⟨?_, ?_, ?_, ?_, ?_, ?_, ?_, ?_⟩
    · norm_num [circleP]
    · norm_num [circleP]
    · norm_num [circleP, circleLeg]
    · change 0 ≤ 1 / (20 * π); positivity
    all_goals norm_num [circleP, circleLeg]
  have hx : (0 : ℝ) < 4 * π / DAY2SEC := div_pos (by positivity) DAY2SEC_pos
  refine ⟨[1, 0, -1 + 0, 0, 0, 1, 0, 4 * π / DAY2SEC], circleLeg 0, o, one_pos, rfl, one_pos, hx, ?_, ?_, circleLeg_visits hsv hq⟩
  · intro u hu
    simp only [slice, triples, List.length_cons, List.length_nil, Nat.add_sub_cancel, List.take_succ_cons, List.take_zero,
      List.drop_succ_cons, List.drop_zero, List.mem_cons, List.not_mem_nil, or_false] at hu
    rcases hu with rfl | rfl
    · intro h; have := congrArg V3.y h; norm_num at this
    · intro h; have := congrArg V3.y h; norm_num at this
  · rw [setLeg_eq (x := [1, 0, -1 + 0, 0, 0, 1, 0, 4 * π / DAY2SEC]) o rfl hx.le]
    congr 1
    have h1 : ⌊((2 : ℕ) : ℝ) * (1 / 2)⌋₊ = 1 := by norm_num
    have h2 : 4 * π / DAY2SEC * DAY2SEC = 4 * π := div_mul_cancel₀ _ DAY2SEC_pos.ne'
    unfold legOf circleP
    simp only [circleLeg, List.length_cons, List.length_nil, List.getD_cons_zero, List.getD_cons_succ, slice, h1, h2,
      Nat.add_sub_cancel, List.take_succ_cons, List.take_zero, List.drop_succ_cons, List.drop_zero]

end P2P

namespace Pl2Pl
variable {p : Pl2Pl}

/-- A planet whose ephemerides are those of a Keplerian planet moves under the gravity of its central body, at every epoch at
which the propagation from the reference epoch is in range. -/
theorem keplerian_moves {sv : Solver} (hsv : sv.Sound) (hq : sv.Quick) {k : Keplerian} {nan : Res (RV (Option ℝ))} {info : String}
    (hmu : 0 < k.muCentralBody) {x : RV ℝ} (hx : k.posVel0 = some x) {pl : ℝ → Res (RV ℝ)}
    (hpl : ∀ u y, Planet.eph (k.udpla sv nan info) u = .ok (spread (some y)) → pl u = .ok y) {t : ℝ}
    (hr : InRange k.muCentralBody x ((t - k.refEpoch) * 86400)) :
    Moves pl k.muCentralBody t (kepFlow x k.muCentralBody ((t - k.refEpoch) * 86400))
      fun u => kepFlow x k.muCentralBody ((u - k.refEpoch) * 86400) := by
  have hγ := kepFlow_twoBody hmu hr.1
  have h0 := kepFlow_zero hmu hr.1
  have hd : HasDerivAt (fun u => (u - k.refEpoch) * 86400) 86400 t := by
    simpa using ((hasDerivAt_id t).sub_const k.refEpoch).mul_const 86400
  have hop : ∀ᶠ u in 𝓝 t, InRange k.muCentralBody x ((u - k.refEpoch) * 86400) := by
    have h1 := inRange_open hmu hr (X := fun _ => x) (T := fun e => (t + e - k.refEpoch) * 86400) rfl (by simp)
      continuousAt_const (by fun_prop)
    have h2 : Tendsto (fun u => u - t) (𝓝 t) (𝓝 0) := by
      have : ContinuousAt (fun u : ℝ => u - t) t := by fun_prop
      simpa [ContinuousAt] using this
    filter_upwards [h2.eventually h1] with u hu
    simpa using hu
  have pos : ∀ {f g : ℝ → ℝ}, (∀ s, HasDerivAt f (g s) s) →
      HasDerivAt (fun u => f ((u - k.refEpoch) * 86400)) (86400 * g ((t - k.refEpoch) * 86400)) t := by
    intro f g h
    refine ((h ((t - k.refEpoch) * 86400)).comp t hd).congr_deriv (mul_comm _ _)
  refine ⟨rfl, (V3.norm_pos (r_ne_of_h (angMom_flow hmu hr.1 _))).ne', ?_, pos hγ.rx, pos hγ.ry, pos hγ.rz, ?_, ?_, ?_⟩
  · filter_upwards [hop] with u hu
    have hrun := C37_flow hsv (k := k) (nan := nan) (info := info) hmu hγ (by rw [h0]; exact hx) (by rw [h0]; exact hr.1)
      (by rw [h0]; exact hr.2.1) u (by rw [h0]; exact hu.hyp)
    rcases hrun with h | ⟨-, h⟩
    · exact hpl u _ h
    · exact absurd hq h
  · exact (pos hγ.vx).congr_deriv (by ring)
  · exact (pos hγ.vy).congr_deriv (by ring)
  · exact (pos hγ.vz).congr_deriv (by ring)

/-- **C56** for the propagator of the code and Keplerian planets about the same body: when the propagations are in range, the
gradient returned is the derivative of the fitness, entry by entry of the sparsity. -/
theorem C56_kepler {sv : Solver} (hsv : sv.Sound) (hq : sv.Quick) (o : p.Ok) (hmu : 0 < p.leg.mu) {x : List ℝ}
    (hx : x.length = 9 + 3 * p.nseg) (hmf : 0 < x.getD 1 0) (htof : 0 < x.getD (x.length - 1) 0)
    (hth : ∀ u ∈ triples (slice 8 (x.length - 1) x), u ≠ 0) {a b : Keplerian} {nan : Res (RV (Option ℝ))} {info : String}
    (ha : a.muCentralBody = p.leg.mu) (hb : b.muCentralBody = p.leg.mu) {xa xb : RV ℝ} (hxa : a.posVel0 = some xa)
    (hxb : b.posVel0 = some xb)
    (hpa : ∀ u y, Planet.eph (a.udpla sv nan info) u = .ok (spread (some y)) → p.pls u = .ok y)
    (hpb : ∀ u y, Planet.eph (b.udpla sv nan info) u = .ok (spread (some y)) → p.plf u = .ok y)
    (hra : InRange p.leg.mu xa ((x.getD 0 0 - a.refEpoch) * 86400))
    (hrb : InRange p.leg.mu xb ((x.getD 0 0 + x.getD (x.length - 1) 0 - b.refEpoch) * 86400))
    {l : Leg ℝ} {s f : RV ℝ} (hl : p.setLeg x = .ok (l, s, f)) (hv : Visits sv l) :
    ∃ grad, (p.gradient (lagrTot sv p.leg.mu) (lagrStm sv p.leg.mu) x).run = .ok (some grad) ∧
      IsJac (p.fitness (lagrTot sv p.leg.mu)) grad p.sparsity (1 + nec + p.nic) x := by
  have hS := keplerian_moves hsv hq (nan := nan) (info := info) (by rw [ha]; exact hmu) hxa hpa (by rw [ha]; exact hra)
  have hF := keplerian_moves hsv hq (nan := nan) (info := info) (by rw [hb]; exact hmu) hxb hpb (by rw [hb]; exact hrb)
  have hs0 := (hS.2.2.1).self_of_nhds
  have hf0 := (hF.2.2.1).self_of_nhds
  have hlegs := setLeg_eq o hx htof.le hs0 hf0
  rw [hl] at hlegs
  have hlegs := Res.ok.inj hlegs
  simp only [Prod.mk.injEq] at hlegs
  obtain ⟨hle, rfl, rfl⟩ := hlegs
  have hm : l.mu = p.leg.mu := by rw [hle]; rfl
  rw [ha] at hS hl
  rw [hb] at hF hl
  refine C56_gradient (lagrTot_reversible hsv hq hmu) o hx hmf htof hth hS hF hl (fun i hi => ?_) (fun i hi => ?_) <;> rw [← hm]
  · exact lagr_flowDeriv hsv hq (by rw [hm]; exact hmu) (hv.fwd i hi)
  · exact lagr_flowDeriv hsv hq (by rw [hm]; exact hmu) (hv.bck i hi)

/-- The states of a planet that are made of numbers; the others are not represented in the problem (`Res.ub`). -/
noncomputable def numbers (e : Res (RV (Option ℝ))) : Res (RV ℝ) :=
  match e with
  | .ok ⟨⟨some a, some b, some c⟩, ⟨some d, some e, some f⟩⟩ => .ok ⟨⟨a, b, c⟩, ⟨d, e, f⟩⟩
  | .err x => .err x
  | _ => .ub

/-- A planet on a circle. -/
noncomputable def circlePlanet : Keplerian := .ofState 0 ⟨⟨1, 0, 0⟩, ⟨0, 1, 0⟩⟩ 1 "" 0 0 0

/-- The leg around a circle, from the planet on that circle to itself. -/
noncomputable def circleP (sv : Solver) (nan : Res (RV (Option ℝ))) (info : String) : Pl2Pl :=
  { leg := { circleLeg 0 with throttles := [], nseg := 0, nsegFwd := 0, nsegBck := 0, tof := 0, mf := 0 }
    pls := fun u => numbers (Planet.eph (circlePlanet.udpla sv nan info) u)
    plf := fun u => numbers (Planet.eph (circlePlanet.udpla sv nan info) u)
    t0Bounds := (-1, 1), tofBounds := (0, 1), mfBounds := (1 / 2, 1), vinfs := 1, vinff := 1, nseg := 2
    massScaling := 2, rScaling := 3, vScaling := 5 }

/-- The hypotheses of `C56_kepler` (hence those of `keplerian_moves`) are met. -/
example {sv : Solver} (hsv : sv.Sound) (hq : sv.Quick) (nan : Res (RV (Option ℝ))) (info : String) :
    ∃ x l s f, (circleP sv nan info).Ok ∧ 0 < (circleP sv nan info).leg.mu ∧ x.length = 9 + 3 * (circleP sv nan info).nseg ∧
      0 < x.getD 1 0 ∧ 0 < x.getD (x.length - 1) 0 ∧ (∀ u ∈ triples (slice 8 (x.length - 1) x), u ≠ 0) ∧
      circlePlanet.muCentralBody = (circleP sv nan info).leg.mu ∧ circlePlanet.posVel0 = some ⟨⟨1, 0, 0⟩, ⟨0, 1, 0⟩⟩ ∧
      (∀ u y, Planet.eph (circlePlanet.udpla sv nan info) u = .ok (spread (some y)) → (circleP sv nan info).pls u = .ok y) ∧
      (∀ t, InRange (circleP sv nan info).leg.mu ⟨⟨1, 0, 0⟩, ⟨0, 1, 0⟩⟩ t) ∧
      (circleP sv nan info).setLeg x = .ok (l, s, f) ∧ Visits sv l := by
  have hpi := Real.pi_pos
  have o : (circleP sv nan info).Ok := by
    refine ⟨?_, ?_, ?_, ?_, ?_, ?_, ?_, ?_⟩
    · norm_num [circleP]
    · norm_num [circleP]
    · norm_num [circleP, circleLeg]
    · change 0 ≤ 1 / (20 * π); positivity
    all_goals norm_num [circleP, circleLeg]
  have hx : (0 : ℝ) < 4 * π / DAY2SEC := div_pos (by positivity) DAY2SEC_pos
  have hpl : ∀ u y, Planet.eph (circlePlanet.udpla sv nan info) u = .ok (spread (some y)) → (circleP sv nan info).pls u = .ok y := by
    intro u y h
    change numbers (Planet.eph (circlePlanet.udpla sv nan info) u) = _
    rw [h]; rfl
  have hn : V3.norm (⟨1, 0, 0⟩ : V3 ℝ) = 1 := by unfold V3.norm V3.dot; norm_num
  have hE : energy (⟨⟨1, 0, 0⟩, ⟨0, 1, 0⟩⟩ : RV ℝ) 1 < 0 := by unfold energy; rw [hn]; unfold V3.dot; norm_num
  have hr : ∀ t, InRange 1 ⟨⟨1, 0, 0⟩, ⟨0, 1, 0⟩⟩ t := by
    refine fun t => ⟨?_, hE.ne, fun h => absurd h hE.not_gt⟩
    intro h
    have := congrArg V3.z h
    simp [angMom, V3.cross] at this
  have at_ : ∀ u, (circleP sv nan info).pls u = .ok ⟨⟨cos (u * 86400), sin (u * 86400), 0⟩, ⟨-sin (u * 86400), cos (u * 86400), 0⟩⟩ := by
    intro u
    have h := (keplerian_moves hsv hq (k := circlePlanet) (nan := nan) (info := info) one_pos rfl hpl (t := u) (hr _)).2.2.1.self_of_nhds
    rw [h]
    change Res.ok (kepFlow ⟨⟨1, 0, 0⟩, ⟨0, 1, 0⟩⟩ 1 ((u - 0) * 86400)) = _
    rw [circle_flow, sub_zero]
  have h2 : 4 * π / DAY2SEC * DAY2SEC = 4 * π := div_mul_cancel₀ _ DAY2SEC_pos.ne'
  have hs := at_ 0
  have hf := at_ (0 + 4 * π / DAY2SEC)
  have h4 : (0 + 4 * π / DAY2SEC) * 86400 = ((2 : ℕ) : ℝ) * (2 * π) := by
    have : DAY2SEC = 86400 := rfl
    rw [zero_add, ← this, h2]; push_cast; ring
  rw [h4, Real.cos_nat_mul_two_pi, show sin (((2 : ℕ) : ℝ) * (2 * π)) = 0 by
    simpa using Real.sin_add_nat_mul_two_pi 0 2, neg_zero] at hf
  simp only [zero_mul, cos_zero, sin_zero, neg_zero] at hs
  have hset := setLeg_eq (x := [0, 1, 0, 0, 0, 0, 0, 0, 0, -1 + 0, 0, 0, 1, 0, 4 * π / DAY2SEC]) o rfl hx.le hs hf
  refine ⟨[0, 1, 0, 0, 0, 0, 0, 0, 0, -1 + 0, 0, 0, 1, 0, 4 * π / DAY2SEC], circleLeg 0, ⟨⟨1, 0, 0⟩, ⟨0, 1, 0⟩⟩,
    ⟨⟨1, 0, 0⟩, ⟨0, 1, 0⟩⟩, o, one_pos, rfl, one_pos, hx, ?_, rfl, rfl, hpl, hr, hset.trans ?_, circleLeg_visits hsv hq⟩
  · intro u hu
    simp only [slice, triples, List.length_cons, List.length_nil, Nat.add_sub_cancel, List.take_succ_cons, List.take_zero,
      List.drop_succ_cons, List.drop_zero, List.mem_cons, List.not_mem_nil, or_false] at hu
    rcases hu with rfl | rfl
    · intro h; have := congrArg V3.y h; norm_num at this
    · intro h; have := congrArg V3.y h; norm_num at this
  · congr 2
    have h1 : ⌊((2 : ℕ) : ℝ) * (1 / 2)⌋₊ = 1 := by norm_num
    unfold legOf circleP
    simp only [circleLeg, List.length_cons, List.length_nil, List.getD_cons_zero, List.getD_cons_succ, slice, h1, h2,
      Nat.add_sub_cancel, List.take_succ_cons, List.take_zero, List.drop_succ_cons, List.drop_zero, add_zero]

end Pl2Pl
end Kep3.Direct
