import Verif.Direct.P2P

/-!
# C55: dimensions, bounds, gradient and sparsity of the direct point-to-point problem
-/

namespace Kep3.Direct
open Real SF SFSpec Filter Topology

theorem foldl_append_flatMap {α β : Type} (f : α → List β) (l : List α) (r : List β) :
    l.foldl (fun r a => r ++ f a) r = r ++ l.flatMap f := by
  induction l generalizing r with
  | nil => simp
  | cons a l ih => rw [List.foldl_cons, ih]; simp

theorem foldlM_append_flatMap {α : Type} {step : List ℝ → α → OptionT Res (List ℝ)} {f : α → List ℝ} {l : List α}
    (h : ∀ a ∈ l, ∀ r, (step r a).run = .ok (some (r ++ f a))) (r : List ℝ) :
    (l.foldlM step r).run = .ok (some (r ++ l.flatMap f)) := by
  induction l generalizing r with
  | nil => simp
  | cons a l ih =>
    rw [List.foldlM_cons, run_bind_some]
    refine ⟨_, h a List.mem_cons_self r, ?_⟩
    rw [ih fun b hb => h b (List.mem_cons_of_mem _ hb)]; simp

theorem map_append_singleton {α β : Type} (f : α → β) (l : List α) (r : List β) :
    l.foldl (fun r a => r ++ [f a]) r = r ++ l.map f := by
  rw [foldl_append_flatMap]
  congr 1
  induction l with
  | nil => rfl
  | cons a l ih => simp [ih]

namespace P2P
variable {φ : RV ℝ → ℝ → RV ℝ} {Φ : RV ℝ → ℝ → Matrix (Fin 6) (Fin 6) ℝ} {p : P2P}

theorem sparsity_eq (p : P2P) : p.sparsity = [(0, 0)] ++
    (List.range' 1 7).flatMap (fun i => (List.range (2 + 3 * p.nseg)).map fun j => (i, j)) ++
    (List.range p.nseg).flatMap fun i => [(8 + i, 3 * i + 1), (8 + i, 3 * i + 2), (8 + i, 3 * i + 3)] := by
  unfold sparsity
  simp only [map_append_singleton, foldl_append_flatMap, List.append_assoc (_ ++ _), List.singleton_append, List.append_assoc]
  congr 1

theorem mem_sparsity {p : P2P} {r c : ℕ} : (r, c) ∈ p.sparsity ↔
    (r = 0 ∧ c = 0) ∨ (1 ≤ r ∧ r ≤ 7 ∧ c < 2 + 3 * p.nseg) ∨
    (8 ≤ r ∧ r < 8 + p.nseg ∧ 3 * (r - 8) + 1 ≤ c ∧ c ≤ 3 * (r - 8) + 3) := by
  rw [sparsity_eq]
  simp only [List.mem_append, List.mem_singleton, List.mem_flatMap, List.mem_map, List.mem_range, List.mem_range'_1,
    Prod.mk.injEq, List.mem_cons, List.not_mem_nil, or_false]
  constructor
  · rintro ((h | ⟨i, hi, j, hj, rfl, rfl⟩) | ⟨i, hi, h⟩)
    · exact .inl h
    · exact .inr (.inl (by omega))
    · exact .inr (.inr (by omega))
  · rintro (h | h | h)
    · exact .inl (.inl h)
    · exact .inl (.inr ⟨r, by omega, c, by omega, rfl, rfl⟩)
    · exact .inr ⟨r - 8, by omega, by omega⟩

theorem nodup_sparsity (p : P2P) : p.sparsity.Nodup := by
  rw [sparsity_eq, List.nodup_append', List.nodup_append']
  refine ⟨⟨List.nodup_singleton _, ?_, ?_⟩, ?_, ?_⟩
  · rw [List.nodup_flatMap]
    refine ⟨fun i _ => (List.nodup_range).map (fun a b h => by simpa using h), ?_⟩
    refine (List.nodup_range' (step := 1)).imp ?_
    intro a b hab
    simp only [Function.onFun, List.disjoint_left, List.mem_map, List.mem_range]
    rintro _ ⟨j, -, rfl⟩ ⟨k, -, hk⟩
    simp only [Prod.mk.injEq] at hk
    exact hab hk.1.symm
  · simp only [List.disjoint_left, List.mem_singleton, List.mem_flatMap, List.mem_map, List.mem_range, List.mem_range'_1]
    rintro _ rfl ⟨i, hi, j, -, h⟩
    simp only [Prod.mk.injEq] at h
    omega
  · rw [List.nodup_flatMap]
    refine ⟨fun i _ => by simp, ?_⟩
    refine (List.nodup_range).imp ?_
    intro a b hab
    simp only [Function.onFun, List.disjoint_left, List.mem_cons, List.not_mem_nil, or_false]
    rintro _ h1 h2
    rcases h1 with rfl | rfl | rfl <;> simp only [Prod.mk.injEq] at h2 <;> omega
  · simp only [List.disjoint_left, List.mem_append, List.mem_singleton, List.mem_flatMap, List.mem_map, List.mem_range,
      List.mem_range'_1, List.mem_cons, List.not_mem_nil, or_false]
    rintro _ (rfl | ⟨i, hi, j, hj, rfl⟩) ⟨k, hk, h⟩ <;> simp only [Prod.mk.injEq] at h <;> omega

/-! ## The gradient -/

/-- The scaling of mismatch component `i`. -/
noncomputable def sc (p : P2P) (i : ℕ) : ℝ := if i < 3 then p.rScaling else if i < 6 then p.vScaling else p.massScaling

/-- Entry of the mismatch rows. -/
noncomputable def rowJ (gf g : List ℝ) (n : ℕ) (s : ℝ) (i c : ℕ) : ℝ :=
  if c = 0 then gf.getD (7 * i + 6) 0 / s
  else if c = 3 * n + 1 then g.getD ((3 * n + 1) * i + 3 * n) 0 / s * DAY2SEC
  else g.getD ((3 * n + 1) * i + (c - 1)) 0 / s

theorem gradRow_eq {gf g : List ℝ} {n : ℕ} {s : ℝ} (hs : s ≠ 0) (hgf : gf.length = 49) (hg : g.length = 7 * (3 * n + 1))
    {i : ℕ} (hi : i < 7) (ret : List ℝ) : (gradRow gf g (3 * n + 1) s ret i).run =
      .ok (some (ret ++ (List.range (2 + 3 * n)).map (rowJ gf g n s i))) := by
  unfold gradRow
  simp only [run_bind_some, run_lift_some, run_num_some, run_pure_some]
  refine ⟨_, rowOf_eq (by rw [hgf]) hi, _, last_eq (by simp), _, div?_ok hs, _, rowOf_eq hg hi, _,
    mapM_some (g := fun v => v / s) (fun a _ => div?_ok hs), ?_⟩
  have e1 : (List.range (3 * n + 1)) = List.range (3 * n) ++ [3 * n] := List.range_succ
  have e2 : List.range (2 + 3 * n) = [0] ++ ((List.range (3 * n)).map (· + 1) ++ [3 * n + 1]) := by
    rw [show 2 + 3 * n = 3 * n + 1 + 1 by ring, List.range_succ_eq_map, e1]; simp
  rw [e1]
  simp only [List.map_append, List.map_cons, List.map_nil, List.map_map, List.append_assoc, e2]
  rw [← List.append_assoc ret, mulLast_append, List.append_assoc]
  congr 1
  have h0 : ((List.range 7).map fun c => gf.getD (7 * i + c) 0).getD
      (((List.range 7).map fun c => gf.getD (7 * i + c) 0).length - 1) 0 = gf.getD (7 * i + 6) 0 := by
    simp
  rw [h0]
  congr 1
  congr 1
  · apply List.map_congr_left
    intro c hc
    have := List.mem_range.1 hc
    simp only [Function.comp, rowJ, if_neg (Nat.succ_ne_zero c), if_neg (show c + 1 ≠ 3 * n + 1 by omega), Nat.add_sub_cancel]
  · simp [rowJ]

/-- The gradient entry for component `rc.1` and variable `rc.2`. -/
noncomputable def J (p : P2P) (gf g ts : List ℝ) (n : ℕ) (rc : ℕ × ℕ) : ℝ :=
  if rc.1 = 0 then -1 / p.massScaling
  else if rc.1 ≤ 7 then rowJ gf g n (p.sc (rc.1 - 1)) (rc.1 - 1) rc.2
  else tcEntry ts (rc.1 - 8) (rc.2 - 1)

theorem gradient_eq {x : List ℝ} {l : Leg ℝ} (hl : p.setLeg x = .ok l) (hn : l.nseg = p.nseg)
    (ht : l.throttles.length = 3 * l.nseg) {gs gf g : List ℝ} (hm : mcGrad φ Φ l = (gs, gf, g)) (hgf : gf.length = 49)
    (hg : g.length = 7 * (3 * l.nseg + 1)) (h1 : p.massScaling ≠ 0) (h2 : p.rScaling ≠ 0) (h3 : p.vScaling ≠ 0) :
    (p.gradient φ Φ x).run = .ok (some (p.sparsity.map (p.J gf g l.throttles l.nseg))) := by
  obtain ⟨tcg, ht1, ht2, ht3⟩ := tcGrad_eq ht
  unfold gradient
  simp only [run_bind_some, run_lift_some, run_num_some]
  refine ⟨l, hl, ?_⟩
  rw [hm]
  simp only [run_bind_some, run_lift_some, run_num_some]
  have rows : ∀ (a b : ℕ) (s : ℝ), s ≠ 0 → a + b ≤ 7 → ∀ r, ((List.range' a b).foldlM (gradRow gf g (3 * l.nseg + 1) s) r).run =
      .ok (some (r ++ (List.range' a b).flatMap fun i => (List.range (2 + 3 * l.nseg)).map (rowJ gf g l.nseg s i))) := by
    intro a b s hs hab r
    refine foldlM_append_flatMap (step := gradRow gf g (3 * l.nseg + 1) s)
      (f := fun i => (List.range (2 + 3 * l.nseg)).map (rowJ gf g l.nseg s i)) (fun i hi r => ?_) r
    have := List.mem_range'_1.1 hi
    exact gradRow_eq hs hgf hg (by omega) r
  refine ⟨tcg, ht1, _, div?_ok h1, _, rows _ _ _ h2 (by norm_num) _, _, rows _ _ _ h3 (by norm_num) _, _,
    rows _ _ _ h1 (by norm_num) _, ?_⟩
  rw [foldlM_append_flatMap (f := fun i => [tcEntry l.throttles i (3 * i), tcEntry l.throttles i (3 * i + 1),
    tcEntry l.throttles i (3 * i + 2)])]
  · rw [sparsity_eq, ← hn]
    simp only [List.map_append, List.map_flatMap, List.map_map, List.map_cons, List.map_nil, List.append_assoc]
    rw [show List.range' 1 7 = (List.range' 0 3 ++ (List.range' 3 3 ++ List.range' 6 1)).map (· + 1) by rfl, List.flatMap_map,
      List.flatMap_append, List.flatMap_append]
    simp only [List.append_assoc]
    have rowEq : ∀ (a b : ℕ) (s : ℝ), (∀ i, a ≤ i → i < a + b → i < 7 ∧ p.sc i = s) →
        (List.range' a b).flatMap (fun i => (List.range (2 + 3 * l.nseg)).map (rowJ gf g l.nseg s i)) =
        (List.range' a b).flatMap fun i => (List.range (2 + 3 * l.nseg)).map
          ((p.J gf g l.throttles l.nseg) ∘ fun j => (i + 1, j)) := by
      intro a b s h
      refine List.flatMap_congr fun i hi => ?_
      obtain ⟨q1, q2⟩ := List.mem_range'_1.1 hi
      obtain ⟨q3, q4⟩ := h i q1 q2
      refine List.map_congr_left fun j _ => ?_
      simp only [Function.comp, J, Nat.add_sub_cancel, if_neg (Nat.succ_ne_zero i), if_pos (show i + 1 ≤ 7 by omega), q4]
    rw [rowEq 0 3 _ (fun i _ h => ⟨by omega, if_pos (by omega)⟩), rowEq 3 3 _ (fun i h1 h => ⟨by omega, by
        unfold sc; rw [if_neg (by omega), if_pos (by omega)]⟩), rowEq 6 1 _ (fun i h1 h => ⟨by omega, by
        unfold sc; rw [if_neg (by omega), if_neg (by omega)]⟩)]
    have thEq : ((List.range l.nseg).flatMap fun i => [tcEntry l.throttles i (3 * i), tcEntry l.throttles i (3 * i + 1),
        tcEntry l.throttles i (3 * i + 2)]) = (List.range l.nseg).flatMap fun i => [p.J gf g l.throttles l.nseg (8 + i, 3 * i + 1),
        p.J gf g l.throttles l.nseg (8 + i, 3 * i + 2), p.J gf g l.throttles l.nseg (8 + i, 3 * i + 3)] := by
      refine List.flatMap_congr fun i hi => ?_
      have e : ∀ c, p.J gf g l.throttles l.nseg (8 + i, c + 1) = tcEntry l.throttles i c := by
        intro c
        unfold J
        rw [if_neg (show ¬8 + i = 0 by omega), if_neg (show ¬8 + i ≤ 7 by omega), Nat.add_sub_cancel_left]
        rfl
      rw [e, e, e]
    rw [thEq]
    rfl
  · intro i hi r
    have hi' : i < l.nseg := by rw [hn]; simpa using hi
    simp only [run_bind_some, run_lift_some, run_pure_some]
    refine ⟨_, rowOf_eq ht2 hi', ?_⟩
    rw [slice_map_range (by omega)]
    congr 1
    rw [show 3 * i + 3 - 3 * i = 3 by omega]
    simp only [List.range_succ, List.range_zero, List.map_append, List.map_cons, List.map_nil, List.nil_append]
    rw [ht3 i _ hi' (by omega), ht3 i _ hi' (by omega), ht3 i _ hi' (by omega)]
    rfl

/-! ## The fitness -/

/-- The leg that `setLeg` leaves. -/
noncomputable def legOf (p : P2P) (x : List ℝ) : Leg ℝ :=
  { p.leg with
    tof := x.getD (x.length - 1) 0 * DAY2SEC, mf := x.getD 0 0, throttles := slice 1 (x.length - 1) x, nseg := p.nseg,
    nsegFwd := ⌊(p.nseg : ℝ) * p.leg.cut⌋₊, nsegBck := p.nseg - ⌊(p.nseg : ℝ) * p.leg.cut⌋₊ }

/-- What the constructor leaves behind when it is given a sensible problem. -/
structure Ok (p : P2P) : Prop where
  nseg : 0 < p.nseg
  size : 3 * p.nseg < 2 ^ 32
  cut : 0 ≤ p.leg.cut ∧ p.leg.cut ≤ 1
  thrust : 0 ≤ p.leg.maxThrust
  ms : 0 < p.leg.ms
  mass : p.massScaling ≠ 0
  r : p.rScaling ≠ 0
  v : p.vScaling ≠ 0

theorem setLeg_eq (o : p.Ok) {x : List ℝ} (hx : x.length = 2 + 3 * p.nseg) (ht : 0 ≤ x.getD (x.length - 1) 0) :
    p.setLeg x = .ok (p.legOf x) := by
  have h1 : x ≠ [] := by intro h; rw [h] at hx; simp at hx; omega
  unfold setLeg
  rw [last_eq h1]
  simp only [Res.ok_bind]
  unfold setTof
  rw [if_neg (by have := mul_nonneg ht DAY2SEC_pos.le; linarith)]
  simp only [Res.ok_bind]
  rw [(idx_ok).2 (getElem?_getD (l := x) (i := 0) (by omega))]
  simp only [Res.ok_bind]
  rw [setThrottles_eq (n := p.nseg) (slice_length (a := 1) (by omega)) o.nseg o.size (by exact o.cut)]
  rfl

/-- Component `k` of the fitness, from the mismatch and the decision vector. -/
noncomputable def val (p : P2P) (d : RV ℝ × ℝ) (x : List ℝ) (k : ℕ) : ℝ :=
  if k = 0 then -x.getD 0 0 / p.massScaling
  else if k ≤ 7 then (list7 d.1 d.2).getD (k - 1) 0 / p.sc (k - 1)
  else x.getD (3 * (k - 8) + 1) 0 * x.getD (3 * (k - 8) + 1) 0 + x.getD (3 * (k - 8) + 2) 0 * x.getD (3 * (k - 8) + 2) 0 +
    x.getD (3 * (k - 8) + 3) 0 * x.getD (3 * (k - 8) + 3) 0 - 1

theorem fitness_eq (o : p.Ok) {x : List ℝ} (hx : x.length = 2 + 3 * p.nseg) (ht : 0 ≤ x.getD (x.length - 1) 0) {d : RV ℝ × ℝ}
    (hd : computeMismatch (fun y t => some (φ y t)) (p.legOf x) = .ok (some d.1, d.2)) :
    (p.fitness φ x).run = .ok (some ((List.range (8 + p.nseg)).map (p.val d x))) := by
  have hlen : (p.legOf x).throttles.length = 3 * (p.legOf x).nseg := slice_length (m := 3 * p.nseg) (by rw [hx]; omega)
  unfold fitness
  simp only [run_bind_some, run_lift_some, run_num_some]
  refine ⟨_, setLeg_eq o hx ht, _, idx_ok.2 (getElem?_getD (by omega)), _, div?_ok o.mass, _, hd, _, rfl, _,
    constraints_eq hlen, _, scale_eq o.r _, _, scale_eq o.v _, ?_⟩
  rw [scale_eq o.mass]
  congr 1
  have hN : (p.legOf x).nseg = p.nseg := rfl
  simp only [List.length_map, List.length_range, List.length_append, List.length_cons, List.length_nil, hN, list7]
  rw [show 0 + 1 + (0 + 1 + 1 + 1 + 1 + 1 + 1 + 1) + p.nseg = 8 + p.nseg by ring]
  refine List.map_congr_left fun k hk => ?_
  have hk' := List.mem_range.1 hk
  rw [getD_map_range hk', getD_map_range hk']
  by_cases h8 : k < 8
  · unfold val sc
    interval_cases k <;> simp [list7]
  · obtain ⟨i, rfl⟩ : ∃ i, k = 8 + i := ⟨k - 8, by omega⟩
    have hi : i < p.nseg := by omega
    rw [if_neg (by omega), if_neg (by omega), if_neg (by omega)]
    unfold val
    rw [if_neg (by omega), if_neg (by omega), Nat.add_sub_cancel_left]
    have e : ∀ c, c < 3 * p.nseg → (p.legOf x).throttles.getD c 0 = x.getD (c + 1) 0 := by
      intro c hc
      rw [add_comm]
      exact throttles_getD (by rw [hx]; omega) c hc
    rw [List.getD_eq_getElem?_getD, List.getElem?_append_right (by simp), ← List.getD_eq_getElem?_getD]
    simp only [List.length_append, List.length_cons, List.length_nil]
    rw [show 8 + i - (0 + 1 + (0 + 1 + 1 + 1 + 1 + 1 + 1 + 1)) = i by omega, getD_map_range hi,
      e _ (by omega), e _ (by omega), e _ (by omega)]

/-! ## The derivatives -/

theorem list7_getD (d : RV ℝ × ℝ) (r : Fin 7) : (list7 d.1 d.2).getD r 0 = vec7 d.1 d.2 r := by
  fin_cases r <;> rfl

theorem const_stateDeriv (x : RV ℝ) : StateDeriv (fun _ => x) 0 := fun _ => hasDerivAt_const _ _

/-- The leg along a change of one decision variable. -/
theorem legCurve (o : p.Ok) {x : List ℝ} (hx : x.length = 2 + 3 * p.nseg) {col : ℕ} (hc : col < x.length) :
    LegCurve (fun e => p.legOf (x.set col (x.getD col 0 + e))) 0 0 0 (if 0 = col then 1 else 0)
      (fun j => if j + 1 = col then 1 else 0) ((if x.length - 1 = col then 1 else 0) * DAY2SEC) where
  maxThrust _ := rfl
  isp _ := rfl
  mu _ := rfl
  nseg _ := rfl
  nsegFwd _ := rfl
  nsegBck _ := rfl
  len e := slice_length (m := 3 * p.nseg) (by simp only [List.length_set]; omega)
  rvs := const_stateDeriv _
  rvf := const_stateDeriv _
  ms := hasDerivAt_const _ _
  mf := hasDeriv_set hc 0
  th j hj := by
    have e : (fun e => (p.legOf (x.set col (x.getD col 0 + e))).throttles.getD j 0) =
        fun e => (x.set col (x.getD col 0 + e)).getD (j + 1) 0 := by
      funext e
      rw [add_comm j 1]
      exact throttles_getD (m := 3 * p.nseg) (by simp only [List.length_set]; omega) j hj
    rw [e]
    exact hasDeriv_set hc (j + 1)
  tof := by
    have := (hasDeriv_set hc (x.length - 1)).mul_const DAY2SEC
    simpa [legOf] using this

theorem sum_ite_one (f : ℕ → ℝ) (n c : ℕ) : ∑ j ∈ Finset.range n, f j * (if j + 1 = c then 1 else 0) =
    if 1 ≤ c ∧ c ≤ n then f (c - 1) else 0 := by
  by_cases h : 1 ≤ c ∧ c ≤ n
  · rw [if_pos h, Finset.sum_eq_single (c - 1)]
    · rw [if_pos (by omega), mul_one]
    · intro b _ hb
      rw [if_neg (by omega), mul_zero]
    · intro hb
      exact absurd (Finset.mem_range.2 (by omega)) hb
  · rw [if_neg h]
    refine Finset.sum_eq_zero fun j hj => ?_
    have := Finset.mem_range.1 hj
    rw [if_neg (by omega), mul_zero]

/-- **C55.** At every decision vector of the right length with positive final mass and time of flight and no zero throttle,
for every propagator with its state transition matrix at the visited states, the gradient is returned, it has one entry per pair
of the sparsity, that entry is the derivative of that fitness component with respect to that variable, and components do not
depend on variables they are not paired with. -/
theorem C55_gradient (hφ : Reversible φ) (o : p.Ok) {x : List ℝ} (hx : x.length = 2 + 3 * p.nseg) (hmf : 0 < x.getD 0 0)
    (htof : 0 < x.getD (x.length - 1) 0) (hth : ∀ u ∈ triples (slice 1 (x.length - 1) x), u ≠ 0)
    {l : Leg ℝ} (hl : p.setLeg x = .ok l)
    (hF : ∀ i, i ≤ l.nsegFwd → FlowDeriv φ Φ l.mu ((fwdHalf l).before φ i) ((fwdHalf l).dur i))
    (hB : ∀ i, i ≤ l.nsegBck → FlowDeriv φ Φ l.mu ((bckArgs (bckHalf l)).before φ i) ((bckArgs (bckHalf l)).dur i)) :
    ∃ grad, (p.gradient φ Φ x).run = .ok (some grad) ∧ IsJac (p.fitness φ) grad p.sparsity (1 + nec + p.nic) x := by
  have hle : l = p.legOf x := by
    have := hl
    rw [setLeg_eq o hx htof.le] at this
    exact (Res.ok.inj this).symm
  subst hle
  have hfl : ⌊(p.nseg : ℝ) * p.leg.cut⌋₊ ≤ p.nseg := by
    have : (p.nseg : ℝ) * p.leg.cut ≤ p.nseg := by
      have h1 : (0 : ℝ) ≤ p.nseg := by positivity
      have := o.cut.2
      nlinarith
    exact (Nat.floor_le_floor this).trans (by simp)
  have R : Regular (p.legOf x) :=
    { nseg := o.nseg
      split := by simp only [legOf]; omega
      tof := mul_pos htof DAY2SEC_pos
      maxThrust := o.thrust
      ms := o.ms
      mf := hmf
      th := hth }
  have hlen : (p.legOf x).throttles.length = 3 * (p.legOf x).nseg := slice_length (m := 3 * p.nseg) (by rw [hx]; omega)
  -- the gradient arrays, from any variable
  obtain ⟨gs, gf, g, hm⟩ : ∃ gs gf g, mcGrad φ Φ (p.legOf x) = (gs, gf, g) := ⟨_, _, _, rfl⟩
  have key : ∀ col, col < x.length → gf.length = 49 ∧ g.length = 7 * (3 * p.nseg + 1) ∧ ∃ D : ℝ → RV ℝ × ℝ,
      (∀ᶠ e in 𝓝 0, computeMismatch (fun y t => some (φ y t)) (p.legOf (x.set col (x.getD col 0 + e))) =
        .ok (some (D e).1, (D e).2)) ∧
      ∀ r : Fin 7, HasDerivAt (fun e => vec7 (D e).1 (D e).2 r) (rowJ gf g p.nseg 1 r col) 0 := by
    intro col hc
    have e0 : p.legOf (x.set col (x.getD col 0 + 0)) = p.legOf x := by rw [set_self hc]
    obtain ⟨gs', gf', g', hm', -, hgf, hg, D, hD, hd⟩ := C47_mc_grad (Φ := Φ) hφ (legCurve o hx hc) (by rw [e0]; exact R)
      (by rw [e0]; exact hF) (by rw [e0]; exact hB)
    rw [e0] at hm' hg hd
    rw [hm] at hm'
    simp only [Prod.mk.injEq] at hm'
    obtain ⟨-, rfl, rfl⟩ := hm'
    refine ⟨hgf, hg, D, hD, fun r => ?_⟩
    have := hd r
    refine this.congr_deriv ?_
    have hN : (p.legOf x).nseg = p.nseg := rfl
    rw [hN, sum_ite_one (fun j => g.getD ((3 * p.nseg + 1) * r + j) 0)]
    simp only [Pi.zero_apply, mul_zero, Finset.sum_const_zero, zero_add, add_zero, rowJ, div_one, hx]
    by_cases c0 : col = 0
    · subst c0
      rw [if_pos rfl, if_neg (by omega), if_pos rfl, if_neg (by omega)]; ring
    · rw [if_neg (Ne.symm c0), if_neg c0]
      by_cases c1 : col = 3 * p.nseg + 1
      · rw [if_neg (by omega), if_pos (by omega), if_pos c1]; ring
      · rw [if_pos (by omega), if_neg (by omega), if_neg c1]; ring
  obtain ⟨hgf, hg, -⟩ := key 0 (by omega)
  refine ⟨_, gradient_eq hl rfl hlen hm hgf hg o.mass o.r o.v, by simp, fun col hc => ?_⟩
  obtain ⟨-, -, D, hD, hd⟩ := key col hc
  have hN : 1 + nec + p.nic = 8 + p.nseg := by unfold nec nic; omega
  refine ⟨fun e => (List.range (8 + p.nseg)).map (p.val (D e) (x.set col (x.getD col 0 + e))), ?_, fun e => by simp [hN], ?_, ?_⟩
  · have ht : ∀ᶠ e in 𝓝 (0 : ℝ), 0 < (x.set col (x.getD col 0 + e)).getD (x.length - 1) 0 := by
      refine (hasDeriv_set hc (x.length - 1)).continuousAt.eventually_const_lt ?_
      show 0 < (x.set col (x.getD col 0 + 0)).getD (x.length - 1) 0
      rw [set_self hc]; exact htof
    filter_upwards [hD, ht] with e h1 h2
    exact fitness_eq o (by rw [List.length_set, hx]) (by rw [List.length_set]; exact h2.le) h1
  · intro k r hk
    have hmem : (r, col) ∈ p.sparsity := List.mem_of_getElem? hk
    have hgk : (p.sparsity.map (p.J gf g (p.legOf x).throttles (p.legOf x).nseg)).getD k 0 =
        p.J gf g (p.legOf x).throttles p.nseg (r, col) := by
      rw [List.getD_eq_getElem?_getD, List.getElem?_map, hk]; rfl
    rw [hgk]
    rw [mem_sparsity] at hmem
    have hr : r < 8 + p.nseg := by omega
    simp only [getD_map_range hr]
    rcases hmem with ⟨rfl, rfl⟩ | ⟨h1, h2, h3⟩ | ⟨h1, h2, h3, h4⟩
    · have := ((hasDeriv_set hc 0).neg).div_const p.massScaling
      simp only [if_pos] at this
      exact this
    · obtain ⟨i, rfl⟩ : ∃ i, r = i + 1 := ⟨r - 1, by omega⟩
      have hs : p.sc i ≠ 0 := by
        unfold sc; split_ifs
        exacts [o.r, o.v, o.mass]
      have e1 : (fun e => p.val (D e) (x.set col (x.getD col 0 + e)) (i + 1)) =
          fun e => vec7 (D e).1 (D e).2 ⟨i, by omega⟩ / p.sc i := by
        funext e
        unfold val
        rw [if_neg (by omega), if_pos h2, Nat.add_sub_cancel, ← list7_getD]
      rw [e1]
      refine ((hd ⟨i, by omega⟩).div_const (p.sc i)).congr_deriv ?_
      unfold J rowJ
      simp only [if_neg (Nat.succ_ne_zero i), if_pos h2, Nat.add_sub_cancel, div_one]
      split_ifs <;> ring
    · obtain ⟨i, rfl⟩ : ∃ i, r = 8 + i := ⟨r - 8, by omega⟩
      rw [Nat.add_sub_cancel_left] at h3 h4
      have e1 : (fun e => p.val (D e) (x.set col (x.getD col 0 + e)) (8 + i)) = fun e =>
          (x.set col (x.getD col 0 + e)).getD (3 * i + 1) 0 * (x.set col (x.getD col 0 + e)).getD (3 * i + 1) 0 +
          (x.set col (x.getD col 0 + e)).getD (3 * i + 2) 0 * (x.set col (x.getD col 0 + e)).getD (3 * i + 2) 0 +
          (x.set col (x.getD col 0 + e)).getD (3 * i + 3) 0 * (x.set col (x.getD col 0 + e)).getD (3 * i + 3) 0 - 1 := by
        funext e
        unfold val
        rw [if_neg (by omega), if_neg (by omega), Nat.add_sub_cancel_left]
      rw [e1]
      have d := fun k => hasDeriv_set hc k
      refine (((((d (3 * i + 1)).mul (d (3 * i + 1))).add ((d (3 * i + 2)).mul (d (3 * i + 2)))).add
        ((d (3 * i + 3)).mul (d (3 * i + 3)))).sub_const 1).congr_deriv ?_
      have e2 : p.J gf g (p.legOf x).throttles p.nseg (8 + i, col) = 2 * x.getD col 0 := by
        unfold J tcEntry
        simp only []
        rw [if_neg (show ¬8 + i = 0 by omega), if_neg (show ¬8 + i ≤ 7 by omega), Nat.add_sub_cancel_left,
          if_pos (by omega)]
        have := throttles_getD (x := x) (a := 1) (m := 3 * p.nseg) (by rw [hx]; omega) (col - 1) (by omega)
        rw [show 1 + (col - 1) = col by omega] at this
        rw [← this]; rfl
      rw [e2, set_self hc]
      rcases (by omega : col = 3 * i + 1 ∨ col = 3 * i + 2 ∨ col = 3 * i + 3) with rfl | rfl | rfl
      · rw [if_pos rfl, if_neg (by omega), if_neg (by omega)]; ring
      · rw [if_pos rfl, if_neg (by omega), if_neg (by omega)]; ring
      · rw [if_pos rfl, if_neg (by omega), if_neg (by omega)]; ring
  · intro r hr hnot
    rw [hN] at hr
    rw [mem_sparsity] at hnot
    refine Eventually.of_forall fun e => ?_
    simp only [getD_map_range hr]
    unfold val
    have e1 : ∀ k, k ≠ col → (x.set col (x.getD col 0 + e)).getD k 0 = (x.set col (x.getD col 0 + 0)).getD k 0 := by
      intro k hk
      rw [getD_set hc, getD_set hc, if_neg hk, if_neg hk]
    by_cases h0 : r = 0
    · rw [if_pos h0, if_pos h0, e1 0 (by omega)]
    · rw [if_neg h0, if_neg h0, if_neg (by omega), if_neg (by omega), e1 _ (by omega), e1 _ (by omega), e1 _ (by omega)]

/-! ## Dimensions and bounds -/

/-- **C55.** The declared bounds have one entry per decision variable; the sparsity lists no pair twice, only pairs in range,
and exactly: the objective with the final mass, the mismatches with everything, each throttle constraint with its throttle. -/
theorem C55_dimensions (p : P2P) : p.bounds.1.length = 2 + 3 * p.nseg ∧ p.bounds.2.length = 2 + 3 * p.nseg ∧
    p.sparsity.Nodup ∧ (∀ rc ∈ p.sparsity, rc.1 < 1 + nec + p.nic ∧ rc.2 < 2 + 3 * p.nseg) ∧
    p.sparsity.length = 1 + nec * (2 + 3 * p.nseg) + 3 * p.nic ∧
    ∀ r c, (r, c) ∈ p.sparsity ↔ (r = 0 ∧ c = 0) ∨ (1 ≤ r ∧ r ≤ 7 ∧ c < 2 + 3 * p.nseg) ∨
      (8 ≤ r ∧ r < 8 + p.nseg ∧ 3 * (r - 8) + 1 ≤ c ∧ c ≤ 3 * (r - 8) + 3) := by
  refine ⟨?_, ?_, nodup_sparsity p, ?_, ?_, fun r c => mem_sparsity⟩
  · simp [bounds]; ring
  · simp [bounds]; ring
  · rintro ⟨r, c⟩ h
    rw [mem_sparsity] at h
    unfold nec nic
    simp only
    omega
  · rw [sparsity_eq]
    simp [nec, nic, List.length_flatMap]
    ring

/-- Within bounds: as many variables as bounds and each between its bounds. -/
def InBounds (b : List ℝ × List ℝ) (x : List ℝ) : Prop := List.Forall₂ (· ≤ ·) b.1 x ∧ List.Forall₂ (· ≤ ·) x b.2

/-- The throttles of a leg, one after the other. -/
def flat (us : List (V3 ℝ)) : List ℝ := us.flatMap fun u => [u.x, u.y, u.z]

theorem forall₂_lower (us : List (V3 ℝ)) (a t : ℝ) :
    List.Forall₂ (· ≤ ·) ((List.replicate us.length [-1, -1, -1]).flatten ++ [a]) (flat us ++ [t]) ↔
      a ≤ t ∧ ∀ u ∈ us, -1 ≤ u.x ∧ -1 ≤ u.y ∧ -1 ≤ u.z := by
  induction us with
  | nil => simp [flat]
  | cons u us ih =>
    have h1 : (List.replicate (u :: us).length [(-1 : ℝ), -1, -1]).flatten ++ [a] =
      -1 :: -1 :: -1 :: ((List.replicate us.length [-1, -1, -1]).flatten ++ [a]) := by simp [List.replicate_succ]
    have h2 : flat (u :: us) ++ [t] = u.x :: u.y :: u.z :: (flat us ++ [t]) := by simp [flat]
    rw [h1, h2, List.forall₂_cons, List.forall₂_cons, List.forall₂_cons, ih]
    simp only [List.mem_cons, forall_eq_or_imp]
    tauto

theorem forall₂_upper (us : List (V3 ℝ)) (a t : ℝ) :
    List.Forall₂ (· ≤ ·) (flat us ++ [t]) ((List.replicate us.length [1, 1, 1]).flatten ++ [a]) ↔
      t ≤ a ∧ ∀ u ∈ us, u.x ≤ 1 ∧ u.y ≤ 1 ∧ u.z ≤ 1 := by
  induction us with
  | nil => simp [flat]
  | cons u us ih =>
    have h1 : (List.replicate (u :: us).length [(1 : ℝ), 1, 1]).flatten ++ [a] =
      1 :: 1 :: 1 :: ((List.replicate us.length [1, 1, 1]).flatten ++ [a]) := by simp [List.replicate_succ]
    have h2 : flat (u :: us) ++ [t] = u.x :: u.y :: u.z :: (flat us ++ [t]) := by simp [flat]
    rw [h1, h2, List.forall₂_cons, List.forall₂_cons, List.forall₂_cons, ih]
    simp only [List.mem_cons, forall_eq_or_imp]
    tauto

theorem abs_le_of_norm {u : V3 ℝ} {k : ℝ} (h : V3.norm u ≤ k) : |u.x| ≤ k ∧ |u.y| ≤ k ∧ |u.z| ≤ k := by
  have hk : 0 ≤ k := le_trans (V3.norm_nonneg _) h
  have hs : u.x ^ 2 + u.y ^ 2 + u.z ^ 2 ≤ k ^ 2 := by
    have h1 := V3.norm_mul_self u
    have h2 := V3.norm_nonneg u
    unfold V3.dot at h1
    nlinarith
  refine ⟨abs_le_of_sq_le_sq ?_ hk, abs_le_of_sq_le_sq ?_ hk, abs_le_of_sq_le_sq ?_ hk⟩ <;> nlinarith [sq_nonneg u.x, sq_nonneg u.y, sq_nonneg u.z]

/-- C55. The bounds: the final mass and the time of flight are free within the ranges given, and the throttles have components
between -1 and 1; so every throttle of size at most one is allowed. -/
theorem C55_bounds (p : P2P) (mf t : ℝ) (us : List (V3 ℝ)) (hu : us.length = p.nseg) :
    (InBounds p.bounds ([mf] ++ flat us ++ [t]) ↔ (p.mfBounds.1 ≤ mf ∧ mf ≤ p.mfBounds.2) ∧
      (p.tofBounds.1 ≤ t ∧ t ≤ p.tofBounds.2) ∧ ∀ u ∈ us, |u.x| ≤ 1 ∧ |u.y| ≤ 1 ∧ |u.z| ≤ 1) ∧
    (p.mfBounds.1 ≤ mf → mf ≤ p.mfBounds.2 → p.tofBounds.1 ≤ t → t ≤ p.tofBounds.2 → (∀ u ∈ us, V3.norm u ≤ 1) →
      InBounds p.bounds ([mf] ++ flat us ++ [t])) := by
  have key : InBounds p.bounds ([mf] ++ flat us ++ [t]) ↔ (p.mfBounds.1 ≤ mf ∧ mf ≤ p.mfBounds.2) ∧
      (p.tofBounds.1 ≤ t ∧ t ≤ p.tofBounds.2) ∧ ∀ u ∈ us, |u.x| ≤ 1 ∧ |u.y| ≤ 1 ∧ |u.z| ≤ 1 := by
    unfold InBounds bounds
    simp only [List.singleton_append, List.cons_append, List.nil_append, List.forall₂_cons]
    rw [← hu, forall₂_lower, forall₂_upper]
    simp only [abs_le]
    constructor
    · rintro ⟨⟨h1, h2, h3⟩, h4, h5, h6⟩
      exact ⟨⟨h1, h4⟩, ⟨h2, h5⟩, fun u hu => ⟨⟨(h3 u hu).1, (h6 u hu).1⟩, ⟨(h3 u hu).2.1, (h6 u hu).2.1⟩, (h3 u hu).2.2, (h6 u hu).2.2⟩⟩
    · rintro ⟨⟨h1, h4⟩, ⟨h2, h5⟩, h⟩
      exact ⟨⟨h1, h2, fun u hu => ⟨(h u hu).1.1, (h u hu).2.1.1, (h u hu).2.2.1⟩⟩, h4, h5, fun u hu => ⟨(h u hu).1.2, (h u hu).2.1.2, (h u hu).2.2.2⟩⟩
  exact ⟨key, fun h1 h2 h3 h4 h5 => key.2 ⟨⟨h1, h2⟩, ⟨h3, h4⟩, fun u hu => abs_le_of_norm (h5 u hu)⟩⟩

theorem bounds_last (a b : ℝ) (t : List ℝ) (n : ℕ) (ht : t.length = 3) :
    ([a] ++ (List.replicate n t).flatten ++ [b]).getD (1 + 3 * n) 0 = b := by
  rw [List.getD_eq_getElem?_getD, List.getElem?_append_right (by simp [ht]; omega)]
  simp [ht, show 1 + 3 * n - (n * 3 + 1) = 0 by omega]

theorem forall₂_getD {a b : List ℝ} (h : List.Forall₂ (· ≤ ·) a b) (k : ℕ) : a.getD k 0 ≤ b.getD k 0 := by
  induction h generalizing k with
  | nil => simp
  | cons h _ ih =>
    cases k with
    | zero => simpa using h
    | succ k => simpa using ih k

/-- **C55.** With bounds of positive masses and times of flight that are not negative, every decision vector within the bounds
is accepted: the leg flies between the two given points with the masses, throttles and the time of flight (in seconds) of the
decision vector, and the fitness has the objective, the scaled mismatches of that leg and the throttle constraints, in this
order. -/
theorem C55_fitness (hφ : Reversible φ) (o : p.Ok) (hm : 0 < p.mfBounds.1) (ht : 0 ≤ p.tofBounds.1) {x : List ℝ}
    (hx : InBounds p.bounds x) : ∃ (f : List ℝ) (l : Leg ℝ) (d : RV ℝ × ℝ) (t : ℝ), (p.fitness φ x).run = .ok (some f) ∧ f.length = 1 + nec + p.nic ∧
      x = [l.mf] ++ l.throttles ++ [t] ∧ l.tof = t * 86400 ∧ l.nseg = p.nseg ∧ l.rvs = p.leg.rvs ∧ l.rvf = p.leg.rvf ∧
      l.ms = p.leg.ms ∧ l.maxThrust = p.leg.maxThrust ∧ l.isp = p.leg.isp ∧ l.mu = p.leg.mu ∧ l.cut = p.leg.cut ∧
      computeMismatch (fun y t => some (φ y t)) l = .ok (some d.1, d.2) ∧
      f = [-l.mf / p.massScaling, d.1.r.x / p.rScaling, d.1.r.y / p.rScaling, d.1.r.z / p.rScaling, d.1.v.x / p.vScaling,
        d.1.v.y / p.vScaling, d.1.v.z / p.vScaling, d.2 / p.massScaling] ++
        (triples l.throttles).map fun u => u.x ^ 2 + u.y ^ 2 + u.z ^ 2 - 1 := by
  have hlen : x.length = 2 + 3 * p.nseg := by
    rw [← hx.1.length_eq]; exact (C55_dimensions p).1
  have h0 : 0 < x.getD 0 0 := by
    have := forall₂_getD hx.1 0
    exact lt_of_lt_of_le (by simpa [bounds] using hm) this
  have hT : 0 ≤ x.getD (x.length - 1) 0 := by
    have := forall₂_getD hx.1 (x.length - 1)
    refine le_trans ?_ this
    rw [hlen, show 2 + 3 * p.nseg - 1 = 1 + 3 * p.nseg by omega]
    unfold bounds
    rw [bounds_last _ _ _ _ (by simp)]
    exact ht
  have hfl : ⌊(p.nseg : ℝ) * p.leg.cut⌋₊ ≤ p.nseg := by
    have : (p.nseg : ℝ) * p.leg.cut ≤ p.nseg := by
      have h1 : (0 : ℝ) ≤ p.nseg := by positivity
      have := o.cut.2
      nlinarith
    exact (Nat.floor_le_floor this).trans (by simp)
  have := mismatch_eq φ hφ (p.legOf x) (slice_length (m := 3 * p.nseg) (by rw [hlen]; omega)) (by simp only [legOf]; omega)
    (mul_nonneg hT DAY2SEC_pos.le) o.thrust o.ms h0
  have hth : (p.legOf x).throttles.length = 3 * p.nseg := slice_length (m := 3 * p.nseg) (by rw [hlen]; omega)
  refine ⟨_, p.legOf x, (_, _), x.getD (x.length - 1) 0, fitness_eq (d := (_, _)) o hlen hT this, by simp [nec, nic], ?_, ?_, rfl,
    rfl, rfl, rfl, rfl, rfl, rfl, rfl, this, ?_⟩
  · refine List.ext_getElem? fun k => ?_
    by_cases hk : k < x.length
    · rw [getElem?_getD hk]
      rcases (by omega : k = 0 ∨ (1 ≤ k ∧ k < 1 + 3 * p.nseg) ∨ k = 1 + 3 * p.nseg) with rfl | ⟨k1, k2⟩ | rfl
      · simp [legOf]
      · rw [List.getElem?_append_left (by simp [hth]; omega), List.getElem?_append_right (by simp; omega)]
        simp only [List.length_singleton]
        rw [getElem?_getD (by omega)]
        have := throttles_getD (x := x) (a := 1) (m := 3 * p.nseg) (by rw [hlen]; omega) (k - 1) (by omega)
        rw [show 1 + (k - 1) = k by omega] at this
        rw [← this]; rfl
      · rw [List.getElem?_append_right (by simp [hth]), List.length_append, hth]
        simp only [List.length_singleton, Nat.sub_self, List.getElem?_cons_zero]
        rw [hlen, show 2 + 3 * p.nseg - 1 = 1 + 3 * p.nseg by omega]
    · rw [List.getElem?_eq_none (by omega), List.getElem?_eq_none (by simp [hth]; omega)]
  · simp [legOf, DAY2SEC]
  · have hc := constraints_eq (l := p.legOf x) hth
    rw [throttleConstraints_eq _ hth] at hc
    have hc := Res.ok.inj hc
    have e1 : ((triples (p.legOf x).throttles).map fun u => u.x ^ 2 + u.y ^ 2 + u.z ^ 2 - 1) =
        (triples (p.legOf x).throttles).map fun u => V3.dot u u - 1 :=
      List.map_congr_left fun u _ => by unfold V3.dot; ring
    rw [e1, hc, List.range_add, List.map_append]
    congr 1
    simp only [List.map_map]
    refine List.map_congr_left fun i hi => ?_
    have hi' := List.mem_range.1 hi
    have e : ∀ c, c < 3 * p.nseg → (p.legOf x).throttles.getD c 0 = x.getD (c + 1) 0 := by
      intro c hc
      rw [add_comm]
      exact throttles_getD (by rw [hlen]; omega) c hc
    rw [e _ (by omega), e _ (by omega), e _ (by omega)]
    simp only [Function.comp, val]
    rw [if_neg (by omega), if_neg (by omega), Nat.add_sub_cancel_left]

/-- Two segments in free space, one flown forward and one backward. -/
noncomputable def exP : P2P :=
  { leg := { rvs := ⟨⟨1, 0, 0⟩, ⟨0, 1, 0⟩⟩, ms := 1, throttles := [], rvf := ⟨⟨2, 0, 0⟩, ⟨0, 1, 0⟩⟩, mf := 0, tof := 0, maxThrust := 1,
             isp := 1, mu := 0, cut := 1 / 2, nseg := 0, nsegFwd := 0, nsegBck := 0 }
    nseg := 2, tofBounds := (1, 2), mfBounds := (1 / 2, 1), massScaling := 2, rScaling := 3, vScaling := 5 }

theorem exP_ok : exP.Ok := by
  refine ⟨?_, ?_, ?_, ?_, ?_, ?_, ?_, ?_⟩ <;> norm_num [exP]

/-- The hypotheses of C55 are met: a vector within the bounds that has a gradient of 63 entries. -/
theorem C55_example : InBounds exP.bounds [1, 1, 0, 0, 0, 1, 0, 1] ∧ exP.sparsity.length = 63 ∧
    ∃ grad, (exP.gradient inertial inertialSTM [1, 1, 0, 0, 0, 1, 0, 1]).run = .ok (some grad) ∧
      IsJac (exP.fitness inertial) grad exP.sparsity 10 [1, 1, 0, 0, 0, 1, 0, 1] ∧ grad.getD 57 0 = 2 ∧ grad.getD 0 0 = -1 / 2 := by
  refine ⟨⟨?_, ?_⟩, ?_, ?_⟩
  · norm_num [bounds, exP, List.replicate_succ]
  · norm_num [bounds, exP, List.replicate_succ]
  · rw [(C55_dimensions exP).2.2.2.2.1]; simp [exP, nec, nic]
  · have hl := setLeg_eq (x := [1, 1, 0, 0, 0, 1, 0, 1]) exP_ok (by simp [exP]) (by simp)
    obtain ⟨grad, h1, h2⟩ := C55_gradient (Φ := inertialSTM) (x := [1, 1, 0, 0, 0, 1, 0, 1]) inertial_reversible exP_ok (by simp [exP])
      (by simp) (by simp) (by
        intro u hu
        simp only [slice, triples, List.length_cons, List.length_nil, Nat.add_sub_cancel, List.take_succ_cons, List.take_zero,
          List.drop_succ_cons, List.drop_zero, List.mem_cons, List.not_mem_nil, or_false] at hu
        rcases hu with rfl | rfl
        · intro h; have := congrArg V3.x h; norm_num at this
        · intro h; have := congrArg V3.y h; norm_num at this) hl
      (fun i _ => inertial_flowDeriv _ _) (fun i _ => inertial_flowDeriv _ _)
    have h3 := gradient_eq (φ := inertial) (Φ := inertialSTM) hl rfl (slice_length (m := 6) (by simp)) rfl (flatten_length _ _ _)
      (by rw [flatten_length]; ring) exP_ok.mass exP_ok.r exP_ok.v
    rw [h1] at h3
    have h4 := Option.some.inj (Res.ok.inj h3)
    refine ⟨grad, h1, h2, ?_, ?_⟩
    · rw [h4, List.getD_eq_getElem?_getD, List.getElem?_map, show exP.sparsity[57]? = some (8, 1) from rfl]
      simp [J, tcEntry, legOf, slice]
    · rw [h4, List.getD_eq_getElem?_getD, List.getElem?_map, show exP.sparsity[0]? = some (0, 0) from rfl]
      simp [J, exP]

end P2P
end Kep3.Direct
