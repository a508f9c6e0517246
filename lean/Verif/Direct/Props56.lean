import Verif.Direct.Pl2Pl
import Verif.Direct.Props55

/-!
# C56: dimensions, bounds, gradient and sparsity of the direct planet-to-planet problem
-/

namespace Kep3.Direct
open Real SF SFSpec Filter Topology

theorem addLast_append (c : ℝ) (a b : List ℝ) (x : ℝ) : addLast c (a ++ (b ++ [x])) = a ++ (b ++ [x + c]) := by
  unfold addLast
  rw [← List.append_assoc, ← List.append_assoc]
  have : (a ++ b ++ [x]).length - 1 = (a ++ b).length := by simp
  rw [this, List.modify_eq_set_getElem?]
  simp [List.set_append]

theorem slice3 {x : List ℝ} {a : ℕ} (h : a + 3 ≤ x.length) :
    slice a (a + 3) x = [x.getD a 0, x.getD (a + 1) 0, x.getD (a + 2) 0] := by
  refine List.ext_getElem? fun k => ?_
  unfold slice
  rw [List.getElem?_drop]
  by_cases hk : k < 3
  · rw [List.getElem?_take_of_lt (by omega), getElem?_getD (by omega)]
    interval_cases k <;> rfl
  · rw [List.getElem?_eq_none (by simp; omega), List.getElem?_eq_none (by simp; omega)]

namespace Pl2Pl
variable {φ : RV ℝ → ℝ → RV ℝ} {Φ : RV ℝ → ℝ → Matrix (Fin 6) (Fin 6) ℝ} {p : Pl2Pl}

theorem sparsity_eq (p : Pl2Pl) : p.sparsity = [(0, 1)] ++
    ((List.range 6).flatMap (fun i => (List.range (9 + 3 * p.nseg)).map fun j => (i + 1, j)) ++
    ([(7, 1)] ++ (List.range (1 + 3 * p.nseg)).map (fun j => (7, 8 + j)) ++
    ((List.range p.nseg).flatMap (fun i => [(8 + i, 3 * i + 8), (8 + i, 3 * i + 9), (8 + i, 3 * i + 10)]) ++
    [(8 + p.nseg, 2), (8 + p.nseg, 3), (8 + p.nseg, 4), (9 + p.nseg, 5), (9 + p.nseg, 6), (9 + p.nseg, 7)]))) := by
  have e1 : List.range' 1 6 = (List.range 6).map (· + 1) := rfl
  have e2 : List.range' 8 (9 + 3 * p.nseg - 8) = (List.range (1 + 3 * p.nseg)).map (8 + ·) := by
    rw [show 9 + 3 * p.nseg - 8 = 1 + 3 * p.nseg by omega, List.range'_eq_map_range]
  unfold sparsity
  simp only [map_append_singleton, foldl_append_flatMap, List.append_assoc (_ ++ _), List.singleton_append, List.append_assoc,
    e1, e2, List.flatMap_map, List.map_map]
  rfl

theorem mem_sparsity {p : Pl2Pl} {r c : ℕ} : (r, c) ∈ p.sparsity ↔
    (r = 0 ∧ c = 1) ∨ (1 ≤ r ∧ r ≤ 6 ∧ c < 9 + 3 * p.nseg) ∨ (r = 7 ∧ (c = 1 ∨ (8 ≤ c ∧ c < 9 + 3 * p.nseg))) ∨
    (8 ≤ r ∧ r < 8 + p.nseg ∧ 3 * (r - 8) + 8 ≤ c ∧ c ≤ 3 * (r - 8) + 10) ∨
    (r = 8 + p.nseg ∧ 2 ≤ c ∧ c ≤ 4) ∨ (r = 9 + p.nseg ∧ 5 ≤ c ∧ c ≤ 7) := by
  rw [sparsity_eq]
  simp only [List.mem_append, List.mem_singleton, List.mem_flatMap, List.mem_map, List.mem_range, List.mem_range'_1,
    Prod.mk.injEq, List.mem_cons, List.not_mem_nil, or_false]
  constructor
  · rintro (h | ⟨i, hi, j, hj, rfl, rfl⟩ | (h | ⟨j, hj, rfl, rfl⟩) | ⟨i, hi, h⟩ | h)
    all_goals omega
  · rintro (h | h | ⟨h, h2⟩ | h | h | h)
    · exact .inl h
    · exact .inr (.inl ⟨r - 1, by omega, c, by omega, by omega, rfl⟩)
    · rcases h2 with h2 | h2
      · exact .inr (.inr (.inl (.inl ⟨h, h2⟩)))
      · exact .inr (.inr (.inl (.inr ⟨c - 8, by omega, by omega, by omega⟩)))
    · exact .inr (.inr (.inr (.inl ⟨r - 8, by omega, by omega⟩)))
    · exact .inr (.inr (.inr (.inr (by omega))))
    · exact .inr (.inr (.inr (.inr (by omega))))

theorem nodup_sparsity (p : Pl2Pl) : p.sparsity.Nodup := by
  rw [sparsity_eq, List.nodup_append', List.nodup_append', List.nodup_append', List.nodup_append', List.nodup_append']
  refine ⟨List.nodup_singleton _, ⟨?_, ⟨⟨List.nodup_singleton _, ?_, ?_⟩, ⟨?_, ?_, ?_⟩, ?_⟩, ?_⟩, ?_⟩
  · rw [List.nodup_flatMap]
    refine ⟨fun i _ => (List.nodup_range).map (fun a b h => by simpa using h), ?_⟩
    refine (List.nodup_range).imp ?_
    intro a b hab
    simp only [Function.onFun, List.disjoint_left, List.mem_map, List.mem_range]
    rintro _ ⟨j, -, rfl⟩ ⟨k, -, hk⟩
    simp only [Prod.mk.injEq] at hk
    omega
  · exact (List.nodup_range).map (fun a b h => by simpa using h)
  · simp only [List.disjoint_left, List.mem_singleton, List.mem_map, List.mem_range]
    rintro _ rfl ⟨j, -, h⟩
    simp only [Prod.mk.injEq] at h
    omega
  · rw [List.nodup_flatMap]
    refine ⟨fun i _ => by simp, ?_⟩
    refine (List.nodup_range).imp ?_
    intro a b hab
    simp only [Function.onFun, List.disjoint_left, List.mem_cons, List.not_mem_nil, or_false]
    rintro _ h1 h2
    rcases h1 with rfl | rfl | rfl <;> simp only [Prod.mk.injEq] at h2 <;> omega
  · simp
  all_goals
    simp only [List.disjoint_left, List.mem_append, List.mem_singleton, List.mem_flatMap, List.mem_map, List.mem_range,
      List.mem_cons, List.not_mem_nil, or_false]
    rintro ⟨a, b⟩ h1 h2
    simp only [Prod.mk.injEq] at h1 h2
  · obtain ⟨i, hi, h1⟩ := h1; omega
  · rcases h1 with h1 | ⟨j, hj, h1⟩ <;> rcases h2 with ⟨i, hi, h2⟩ | h2 <;> omega
  · obtain ⟨i, hi, j, hj, h1⟩ := h1
    rcases h2 with (h2 | ⟨j, hj, h2⟩) | ⟨k, hk, h2⟩ | h2 <;> omega
  · rcases h2 with ⟨i, hi, j, hj, h2⟩ | (h2 | ⟨j, hj, h2⟩) | ⟨k, hk, h2⟩ | h2 <;> omega

/-! ## The gradient -/

/-- The scaling of mismatch component `i`. -/
noncomputable def sc (p : Pl2Pl) (i : ℕ) : ℝ := if i < 3 then p.rScaling else if i < 6 then p.vScaling else p.massScaling

/-- The effect of the motion of a planet through row `i` of a gradient. -/
noncomputable def mov (mu : ℝ) (a : List ℝ) (s : RV ℝ) (i : ℕ) : ℝ :=
  a.getD (7 * i) 0 * s.v.x + a.getD (7 * i + 1) 0 * s.v.y + a.getD (7 * i + 2) 0 * s.v.z -
    (a.getD (7 * i + 3) 0 * s.r.x + a.getD (7 * i + 4) 0 * s.r.y + a.getD (7 * i + 5) 0 * s.r.z) * mu / V3.norm s.r ^ 3

theorem moved_eq {mu : ℝ} {a : List ℝ} {s : RV ℝ} (i : ℕ) (hr : V3.norm s.r ≠ 0) :
    (moved mu ((List.range 7).map fun c => a.getD (7 * i + c) 0) s).run = .ok (some (mov mu a s i)) := by
  unfold moved
  simp only [run_bind_some, run_lift_some, run_num_some, run_pure_some]
  refine ⟨_, rfl, _, rfl, _, div?_ok (pow_ne_zero 3 hr), ?_⟩
  rfl

/-- Entry of the mismatch rows. -/
noncomputable def rowJ (mu : ℝ) (s f : RV ℝ) (gs gf g : List ℝ) (n : ℕ) (k : ℝ) (i c : ℕ) : ℝ :=
  if c = 0 then (mov mu gs s i + mov mu gf f i) / k / SEC2DAY
  else if c = 1 then gf.getD (7 * i + 6) 0 / k
  else if c < 5 then gs.getD (7 * i + (c + 1)) 0 / k
  else if c < 8 then gf.getD (7 * i + (c - 2)) 0 / k
  else if c = 8 + 3 * n then (g.getD ((3 * n + 1) * i + 3 * n) 0 / k + mov mu gf f i / k) * DAY2SEC
  else g.getD ((3 * n + 1) * i + (c - 8)) 0 / k

theorem SEC2DAY_ne : SEC2DAY ≠ 0 := by unfold SEC2DAY; exact one_div_ne_zero DAY2SEC_pos.ne'

/-- The end of a row, common to both loops. -/
theorem tail_eq (mu : ℝ) (s f : RV ℝ) (gs gf g : List ℝ) (n : ℕ) (k : ℝ) (i : ℕ) (pre : List ℝ) :
    mulLast DAY2SEC (addLast (mov mu gf f i / k) (pre ++ ((List.range (3 * n + 1)).map
      fun c => g.getD ((3 * n + 1) * i + c) 0).map (· / k))) =
    pre ++ (List.range (1 + 3 * n)).map fun c => rowJ mu s f gs gf g n k i (8 + c) := by
  have e1 : (List.range (3 * n + 1)) = List.range (3 * n) ++ [3 * n] := List.range_succ
  rw [show 1 + 3 * n = 3 * n + 1 by ring, e1]
  simp only [List.map_append, List.map_cons, List.map_nil, List.map_map]
  rw [addLast_append, mulLast_append]
  congr 1
  congr 1
  · refine List.map_congr_left fun c hc => ?_
    have := List.mem_range.1 hc
    simp only [Function.comp, rowJ]
    rw [if_neg (by omega), if_neg (by omega), if_neg (by omega), if_neg (by omega), if_neg (by omega), Nat.add_sub_cancel_left]
  · simp only [rowJ]
    rw [if_neg (by omega), if_neg (by omega), if_neg (by omega), if_neg (by omega), if_pos trivial]

theorem gradRow_eq {l : Leg ℝ} {s f : RV ℝ} {gs gf g : List ℝ} (h2 : p.rScaling ≠ 0) (h3 : p.vScaling ≠ 0)
    (hgs : gs.length = 49) (hgf : gf.length = 49) (hg : g.length = 7 * (3 * l.nseg + 1)) (hs : V3.norm s.r ≠ 0)
    (hf : V3.norm f.r ≠ 0) {i : ℕ} (hi : i < 6) (ret : List ℝ) : (p.gradRow l s f gs gf g ret i).run =
      .ok (some (ret ++ (List.range (9 + 3 * l.nseg)).map (rowJ l.mu s f gs gf g l.nseg (p.sc i) i))) := by
  have hk : (if i < 3 then p.rScaling else p.vScaling) = p.sc i := by
    unfold sc; split_ifs <;> rfl
  have hk0 : p.sc i ≠ 0 := by rw [← hk]; split_ifs; exacts [h2, h3]
  unfold gradRow
  simp only [hk, run_bind_some, run_lift_some, run_num_some, run_pure_some]
  refine ⟨_, rowOf_eq (by rw [hgs]) (by omega), _, rowOf_eq (by rw [hgf]) (by omega), _, moved_eq i hs, _, moved_eq i hf,
    (mov l.mu gs s i + mov l.mu gf f i) / p.sc i / SEC2DAY, ?_, _, last_eq (by simp), _, div?_ok hk0, _,
    mapM_some (g := fun v => v / p.sc i) (fun a _ => div?_ok hk0), _,
    mapM_some (g := fun v => v / p.sc i) (fun a _ => div?_ok hk0), _, rowOf_eq hg (by omega), _,
    mapM_some (g := fun v => v / p.sc i) (fun a _ => div?_ok hk0), _, moved_eq i hf, _, div?_ok hk0, ?_⟩
  · rw [div?_ok hk0]; exact div?_ok SEC2DAY_ne
  · rw [tail_eq l.mu s f gs gf g]
    have e8 : List.range (9 + 3 * l.nseg) = List.range 8 ++ (List.range (1 + 3 * l.nseg)).map (8 + ·) := by
      rw [show 9 + 3 * l.nseg = 8 + (1 + 3 * l.nseg) by ring, List.range_add]
    rw [e8, List.map_append, List.map_map,
      slice_map_range (by norm_num), slice_map_range (by norm_num)]
    have eT : List.map (rowJ l.mu s f gs gf g l.nseg (p.sc i) i ∘ fun x => 8 + x) (List.range (1 + 3 * l.nseg)) =
      (List.range (1 + 3 * l.nseg)).map fun c => rowJ l.mu s f gs gf g l.nseg (p.sc i) i (8 + c) := rfl
    rw [eT]
    generalize (List.range (1 + 3 * l.nseg)).map (fun c => rowJ l.mu s f gs gf g l.nseg (p.sc i) i (8 + c)) = T
    simp [List.range_succ, rowJ]

theorem massRow_eq {l : Leg ℝ} {s f : RV ℝ} {gs gf g : List ℝ} (h1 : p.massScaling ≠ 0)
    (hgf : gf.length = 49) (hg : g.length = 7 * (3 * l.nseg + 1)) (hf : V3.norm f.r ≠ 0) (ret : List ℝ) :
    (p.massRow l f gf g ret 6).run = .ok (some (ret ++ ([rowJ l.mu s f gs gf g l.nseg (p.sc 6) 6 1] ++
      (List.range (1 + 3 * l.nseg)).map fun c => rowJ l.mu s f gs gf g l.nseg (p.sc 6) 6 (8 + c)))) := by
  have hk : p.massScaling = p.sc 6 := by unfold sc; norm_num
  have hk0 : p.sc 6 ≠ 0 := by rw [← hk]; exact h1
  unfold massRow
  simp only [hk, run_bind_some, run_lift_some, run_num_some, run_pure_some]
  refine ⟨_, rowOf_eq (by rw [hgf]) (by omega), _, last_eq (by simp), _, div?_ok hk0, _, rowOf_eq hg (by omega), _,
    mapM_some (g := fun v => v / p.sc 6) (fun a _ => div?_ok hk0), _, moved_eq 6 hf, _, div?_ok hk0, ?_⟩
  rw [tail_eq l.mu s f gs gf g, List.append_assoc]
  congr 1

/-- The gradient entry for component `rc.1` and variable `rc.2`. -/
noncomputable def J (p : Pl2Pl) (mu : ℝ) (s f : RV ℝ) (gs gf g x ts : List ℝ) (rc : ℕ × ℕ) : ℝ :=
  if rc.1 = 0 then -1 / p.massScaling
  else if rc.1 ≤ 7 then rowJ mu s f gs gf g p.nseg (p.sc (rc.1 - 1)) (rc.1 - 1) rc.2
  else if rc.1 < 8 + p.nseg then tcEntry ts (rc.1 - 8) (rc.2 - 8)
  else 2 * x.getD rc.2 0 / p.vScaling ^ 2

theorem gradient_eq {x : List ℝ} (hx : x.length = 9 + 3 * p.nseg) {l : Leg ℝ} {s f : RV ℝ} (hl : p.setLeg x = .ok (l, s, f))
    (hn : l.nseg = p.nseg) (ht : l.throttles.length = 3 * l.nseg) {gs gf g : List ℝ} (hm : mcGrad φ Φ l = (gs, gf, g))
    (hgs : gs.length = 49) (hgf : gf.length = 49) (hg : g.length = 7 * (3 * l.nseg + 1)) (h1 : p.massScaling ≠ 0)
    (h2 : p.rScaling ≠ 0) (h3 : p.vScaling ≠ 0) (hs : V3.norm s.r ≠ 0) (hf : V3.norm f.r ≠ 0) :
    (p.gradient φ Φ x).run = .ok (some (p.sparsity.map (p.J l.mu s f gs gf g x l.throttles))) := by
  obtain ⟨tcg, ht1, ht2, ht3⟩ := tcGrad_eq ht
  unfold gradient
  simp only [run_bind_some, run_lift_some, run_num_some]
  refine ⟨_, hl, ?_⟩
  simp only [hm, run_bind_some, run_lift_some, run_num_some]
  have rows : ∀ r, ((List.range 6).foldlM (p.gradRow l s f gs gf g) r).run = .ok (some (r ++ (List.range 6).flatMap fun i =>
      (List.range (9 + 3 * l.nseg)).map (rowJ l.mu s f gs gf g l.nseg (p.sc i) i))) := by
    intro r
    refine foldlM_append_flatMap (step := p.gradRow l s f gs gf g) (f := fun i =>
      (List.range (9 + 3 * l.nseg)).map (rowJ l.mu s f gs gf g l.nseg (p.sc i) i)) (fun i hi r => ?_) r
    exact gradRow_eq h2 h3 hgs hgf hg hs hf (List.mem_range.1 hi) r
  have mrow : ∀ r, ((List.range' 6 1).foldlM (p.massRow l f gf g) r).run = .ok (some (r ++
      ([rowJ l.mu s f gs gf g l.nseg (p.sc 6) 6 1] ++
      (List.range (1 + 3 * l.nseg)).map fun c => rowJ l.mu s f gs gf g l.nseg (p.sc 6) 6 (8 + c)))) := by
    intro r
    simp only [List.range', List.foldlM_cons, List.foldlM_nil, run_bind_some, run_pure_some]
    exact ⟨_, massRow_eq (s := s) (gs := gs) h1 hgf hg hf r, rfl⟩
  have trow : ∀ r : List ℝ, ((List.range l.nseg).foldlM (fun retval i => do
      let row ← lift (rowOf l.nseg (3 * l.nseg) tcg i)
      return retval ++ slice (3 * i) (3 * i + 3) row) r : OptionT Res (List ℝ)).run = .ok (some (r ++
      (List.range l.nseg).flatMap fun i => [tcEntry l.throttles i (3 * i), tcEntry l.throttles i (3 * i + 1),
        tcEntry l.throttles i (3 * i + 2)])) := by
    intro r
    refine foldlM_append_flatMap (f := fun i => [tcEntry l.throttles i (3 * i), tcEntry l.throttles i (3 * i + 1),
      tcEntry l.throttles i (3 * i + 2)]) ?_ r
    intro i hi r
    have hi' : i < l.nseg := List.mem_range.1 hi
    simp only [run_bind_some, run_lift_some, run_pure_some]
    refine ⟨_, rowOf_eq ht2 hi', ?_⟩
    rw [slice_map_range (by omega)]
    congr 1
    rw [show 3 * i + 3 - 3 * i = 3 by omega]
    simp only [List.range_succ, List.range_zero, List.map_append, List.map_cons, List.map_nil, List.nil_append]
    rw [ht3 i _ hi' (by omega), ht3 i _ hi' (by omega), ht3 i _ hi' (by omega)]
    rfl
  refine ⟨tcg, ht1, _, div?_ok h1, _, rows _, _, mrow _, _, trow _, _, idx_ok.2 (getElem?_getD (by omega)), _,
    idx_ok.2 (getElem?_getD (by omega)), _, idx_ok.2 (getElem?_getD (by omega)), _, idx_ok.2 (getElem?_getD (by omega)), _,
    idx_ok.2 (getElem?_getD (by omega)), _, idx_ok.2 (getElem?_getD (by omega)), _,
    mapM_some (g := fun v => v / p.vScaling ^ 2) (fun a _ => div?_ok (pow_ne_zero 2 h3)), ?_⟩
  simp only [run_pure_some]
  have split6 : ∀ (A : List ℝ) (a b c d e f' : ℝ), (A ++ [a, b, c, d, e, f']).length - 6 = A.length := by
    intros; simp
  rw [split6, List.drop_left, List.take_left, sparsity_eq, ← hn]
  simp only [List.map_append, List.map_flatMap, List.map_map, List.map_cons, List.map_nil, List.append_assoc]
  have rEq : ((List.range 6).flatMap fun i => (List.range (9 + 3 * l.nseg)).map (rowJ l.mu s f gs gf g l.nseg (p.sc i) i)) =
      (List.range 6).flatMap fun i => (List.range (9 + 3 * l.nseg)).map
        ((p.J l.mu s f gs gf g x l.throttles) ∘ fun j => (i + 1, j)) := by
    refine List.flatMap_congr fun i hi => ?_
    have := List.mem_range.1 hi
    refine List.map_congr_left fun j _ => ?_
    simp only [Function.comp, J, Nat.add_sub_cancel, if_neg (Nat.succ_ne_zero i), if_pos (show i + 1 ≤ 7 by omega), hn]
  have mEq : ((List.range (1 + 3 * l.nseg)).map fun c => rowJ l.mu s f gs gf g l.nseg (p.sc 6) 6 (8 + c)) =
      (List.range (1 + 3 * l.nseg)).map ((p.J l.mu s f gs gf g x l.throttles) ∘ fun j => (7, 8 + j)) := by
    refine List.map_congr_left fun j _ => ?_
    simp [J, hn]
  have tEq : ((List.range l.nseg).flatMap fun i => [tcEntry l.throttles i (3 * i), tcEntry l.throttles i (3 * i + 1),
      tcEntry l.throttles i (3 * i + 2)]) = (List.range l.nseg).flatMap fun i =>
      [p.J l.mu s f gs gf g x l.throttles (8 + i, 3 * i + 8), p.J l.mu s f gs gf g x l.throttles (8 + i, 3 * i + 9),
        p.J l.mu s f gs gf g x l.throttles (8 + i, 3 * i + 10)] := by
    refine List.flatMap_congr fun i hi => ?_
    have := List.mem_range.1 hi
    have e : ∀ c, p.J l.mu s f gs gf g x l.throttles (8 + i, c + 8) = tcEntry l.throttles i c := by
      intro c
      unfold J
      rw [if_neg (show ¬8 + i = 0 by omega), if_neg (show ¬8 + i ≤ 7 by omega), if_pos (show 8 + i < 8 + p.nseg by omega),
        Nat.add_sub_cancel_left]
      rfl
    rw [e (3 * i), e (3 * i + 1), e (3 * i + 2)]
  have vS : ∀ b, p.J l.mu s f gs gf g x l.throttles (8 + l.nseg, b) = 2 * x.getD b 0 / p.vScaling ^ 2 := by
    intro b
    unfold J
    rw [if_neg (show ¬8 + l.nseg = 0 by omega), if_neg (show ¬8 + l.nseg ≤ 7 by omega),
      if_neg (show ¬8 + l.nseg < 8 + p.nseg by omega)]
  have vF : ∀ b, p.J l.mu s f gs gf g x l.throttles (9 + l.nseg, b) = 2 * x.getD b 0 / p.vScaling ^ 2 := by
    intro b
    unfold J
    rw [if_neg (show ¬9 + l.nseg = 0 by omega), if_neg (show ¬9 + l.nseg ≤ 7 by omega),
      if_neg (show ¬9 + l.nseg < 8 + p.nseg by omega)]
  have hM : rowJ l.mu s f gs gf g l.nseg (p.sc 6) 6 1 = p.J l.mu s f gs gf g x l.throttles (7, 1) := by
    simp [J, hn]
  have hO : -1 / p.massScaling = p.J l.mu s f gs gf g x l.throttles (0, 1) := by simp [J]
  rw [rEq, mEq, tEq, vS, vS, vS, vF, vF, vF, hM, hO]

/-! ## The fitness -/

/-- The leg that `setLeg` leaves when the planets are at `s` and `f`. -/
noncomputable def legOf (p : Pl2Pl) (s f : RV ℝ) (x : List ℝ) : Leg ℝ :=
  { p.leg with
    rvs := ⟨s.r, ⟨s.v.x + x.getD 2 0, s.v.y + x.getD 3 0, s.v.z + x.getD 4 0⟩⟩
    rvf := ⟨f.r, ⟨f.v.x + x.getD 5 0, f.v.y + x.getD 6 0, f.v.z + x.getD 7 0⟩⟩
    tof := x.getD (x.length - 1) 0 * DAY2SEC, mf := x.getD 1 0, throttles := slice 8 (x.length - 1) x, nseg := p.nseg,
    nsegFwd := ⌊(p.nseg : ℝ) * p.leg.cut⌋₊, nsegBck := p.nseg - ⌊(p.nseg : ℝ) * p.leg.cut⌋₊ }

/-- What the constructor leaves behind when it is given a sensible problem. -/
structure Ok (p : Pl2Pl) : Prop where
  nseg : 0 < p.nseg
  size : 3 * p.nseg < 2 ^ 32
  cut : 0 ≤ p.leg.cut ∧ p.leg.cut ≤ 1
  thrust : 0 ≤ p.leg.maxThrust
  ms : 0 < p.leg.ms
  mass : p.massScaling ≠ 0
  r : p.rScaling ≠ 0
  v : p.vScaling ≠ 0

theorem setLeg_eq (o : p.Ok) {x : List ℝ} (hx : x.length = 9 + 3 * p.nseg) (ht : 0 ≤ x.getD (x.length - 1) 0) {s f : RV ℝ}
    (hs : p.pls (x.getD 0 0) = .ok s) (hf : p.plf (x.getD 0 0 + x.getD (x.length - 1) 0) = .ok f) :
    p.setLeg x = .ok (p.legOf s f x, s, f) := by
  have h1 : x ≠ [] := by intro h; rw [h] at hx; simp at hx; omega
  unfold setLeg
  rw [(idx_ok).2 (getElem?_getD (l := x) (i := 0) (by omega))]
  simp only [Res.ok_bind, hs]
  rw [last_eq h1]
  simp only [Res.ok_bind, hf]
  rw [slice3 (a := 2) (by omega), slice3 (a := 5) (by omega)]
  simp only [zipAdd, Res.ok_bind]
  unfold setTof
  rw [if_neg (by have := mul_nonneg ht DAY2SEC_pos.le; linarith)]
  simp only [Res.ok_bind]
  rw [(idx_ok).2 (getElem?_getD (l := x) (i := 1) (by omega))]
  simp only [Res.ok_bind]
  rw [setThrottles_eq (n := p.nseg) (slice_length (a := 8) (by omega)) o.nseg o.size (by exact o.cut)]
  rfl

/-- Component `k` of the fitness, from the mismatch and the decision vector. -/
noncomputable def val (p : Pl2Pl) (d : RV ℝ × ℝ) (x : List ℝ) (k : ℕ) : ℝ :=
  if k = 0 then -x.getD 1 0 / p.massScaling
  else if k ≤ 7 then (list7 d.1 d.2).getD (k - 1) 0 / p.sc (k - 1)
  else if k < 8 + p.nseg then
    x.getD (3 * (k - 8) + 8) 0 * x.getD (3 * (k - 8) + 8) 0 + x.getD (3 * (k - 8) + 9) 0 * x.getD (3 * (k - 8) + 9) 0 +
    x.getD (3 * (k - 8) + 10) 0 * x.getD (3 * (k - 8) + 10) 0 - 1
  else if k = 8 + p.nseg then (x.getD 2 0 ^ 2 + x.getD 3 0 ^ 2 + x.getD 4 0 ^ 2 - p.vinfs ^ 2) / p.vScaling ^ 2
  else (x.getD 5 0 ^ 2 + x.getD 6 0 ^ 2 + x.getD 7 0 ^ 2 - p.vinff ^ 2) / p.vScaling ^ 2

/-- The four in-place divisions of `fitness`. -/
theorem scale4 {m r v : ℝ} (hm : m ≠ 0) (hr : r ≠ 0) (hv : v ≠ 0) (a : List ℝ) : ∃ b1 b2 b3, scale 0 1 m a = some b1 ∧
    scale 1 4 r b1 = some b2 ∧ scale 4 7 v b2 = some b3 ∧ scale 7 8 m b3 = some ((List.range a.length).map fun k =>
      a.getD k 0 / if k = 0 then m else if k < 4 then r else if k < 7 then v else if k < 8 then m else 1) := by
  refine ⟨_, _, _, scale_eq hm _, scale_eq hr _, scale_eq hv _, ?_⟩
  rw [scale_eq hm]
  simp only [List.length_map, List.length_range]
  congr 1
  refine List.map_congr_left fun k hk => ?_
  have hk' := List.mem_range.1 hk
  rw [getD_map_range hk', getD_map_range hk', getD_map_range hk']
  generalize a.getD k 0 = y
  split_ifs <;> first | rfl | omega | simp

theorem head8 {a b c d e f g h : ℝ} {rest : List ℝ} {k : ℕ} (hk : k < 8) :
    ([a] ++ [b, c, d, e, f, g, h] ++ rest).getD k 0 = [a, b, c, d, e, f, g, h].getD k 0 := by
  interval_cases k <;> rfl

theorem fitness_eq (o : p.Ok) {x : List ℝ} (hx : x.length = 9 + 3 * p.nseg) {s f : RV ℝ}
    (hl : p.setLeg x = .ok (p.legOf s f x, s, f)) {d : RV ℝ × ℝ}
    (hd : computeMismatch (fun y t => some (φ y t)) (p.legOf s f x) = .ok (some d.1, d.2)) :
    (p.fitness φ x).run = .ok (some ((List.range (10 + p.nseg)).map (p.val d x))) := by
  have hlen : (p.legOf s f x).throttles.length = 3 * (p.legOf s f x).nseg :=
    slice_length (m := 3 * p.nseg) (by rw [hx]; omega)
  have hN : (p.legOf s f x).nseg = p.nseg := rfl
  have hv2 := pow_ne_zero 2 o.v
  unfold fitness
  simp only [run_bind_some, run_lift_some, run_num_some]
  refine ⟨_, idx_ok.2 (getElem?_getD (by omega)), _, hl, ?_⟩
  simp only [run_bind_some, run_lift_some, run_num_some]
  refine ⟨_, hd, _, rfl, _, constraints_eq hlen, _, idx_ok.2 (getElem?_getD (by omega)), _, idx_ok.2 (getElem?_getD (by omega)), _,
    idx_ok.2 (getElem?_getD (by omega)), _, div?_ok hv2, _, idx_ok.2 (getElem?_getD (by omega)), _,
    idx_ok.2 (getElem?_getD (by omega)), _, idx_ok.2 (getElem?_getD (by omega)), _, div?_ok hv2, ?_⟩
  simp only [list7]
  obtain ⟨b1, b2, b3, q1, q2, q3, q4⟩ := scale4 o.mass o.r o.v ([-x.getD 1 0] ++ [d.1.r.x, d.1.r.y, d.1.r.z, d.1.v.x, d.1.v.y, d.1.v.z, d.2] ++
    ((List.range (p.legOf s f x).nseg).map (fun i => (p.legOf s f x).throttles.getD (3 * i) 0 * (p.legOf s f x).throttles.getD (3 * i) 0 +
      (p.legOf s f x).throttles.getD (3 * i + 1) 0 * (p.legOf s f x).throttles.getD (3 * i + 1) 0 +
      (p.legOf s f x).throttles.getD (3 * i + 2) 0 * (p.legOf s f x).throttles.getD (3 * i + 2) 0 - 1) ++
    [(x.getD 2 0 ^ 2 + x.getD 3 0 ^ 2 + x.getD 4 0 ^ 2 - p.vinfs ^ 2) / p.vScaling ^ 2] ++
    [(x.getD 5 0 ^ 2 + x.getD 6 0 ^ 2 + x.getD 7 0 ^ 2 - p.vinff ^ 2) / p.vScaling ^ 2]))
  refine ⟨b1, q1, b2, q2, b3, q3, ?_⟩
  rw [q4]
  congr 1
  simp only [List.length_map, List.length_range, List.length_append, List.length_cons, List.length_nil, hN]
  rw [show 0 + 1 + (0 + 1 + 1 + 1 + 1 + 1 + 1 + 1) + (p.nseg + (0 + 1) + (0 + 1)) = 10 + p.nseg by ring]
  refine List.map_congr_left fun k hk => ?_
  have hk' := List.mem_range.1 hk
  by_cases h8 : k < 8
  · rw [head8 h8]
    unfold val sc
    rcases (by omega : k = 0 ∨ k = 1 ∨ k = 2 ∨ k = 3 ∨ k = 4 ∨ k = 5 ∨ k = 6 ∨ k = 7) with
      rfl | rfl | rfl | rfl | rfl | rfl | rfl | rfl <;> norm_num [list7]
  · obtain ⟨i, rfl⟩ : ∃ i, k = 8 + i := ⟨k - 8, by omega⟩
    rw [if_neg (by omega), if_neg (by omega), if_neg (by omega), if_neg (by omega), div_one]
    unfold val
    rw [if_neg (by omega), if_neg (by omega), Nat.add_sub_cancel_left]
    rw [List.getD_eq_getElem?_getD, List.getElem?_append_right (by simp)]
    simp only [List.length_append, List.length_cons, List.length_nil]
    rw [show 8 + i - (0 + 1 + (0 + 1 + 1 + 1 + 1 + 1 + 1 + 1)) = i by omega]
    by_cases hi : i < p.nseg
    · have e : ∀ c, c < 3 * p.nseg → (p.legOf s f x).throttles.getD c 0 = x.getD (c + 8) 0 := by
        intro c hc
        rw [add_comm]
        exact throttles_getD (m := 3 * p.nseg) (by rw [hx]; omega) c hc
      rw [if_pos (by omega), List.getElem?_append_left (by simp; omega), List.getElem?_append_left (by simpa using hi),
        ← List.getD_eq_getElem?_getD, getD_map_range hi, e _ (by omega), e _ (by omega), e _ (by omega)]
    · rw [if_neg (by omega)]
      by_cases h9 : i = p.nseg
      · rw [if_pos (by omega), List.getElem?_append_left (by simp; omega), List.getElem?_append_right (by simp; omega)]
        simp [h9]
      · rw [if_neg (by omega), List.getElem?_append_right (by simp; omega)]
        simp [show i = p.nseg + 1 by omega]

/-! ## The derivatives -/

/-- Near the epoch `t` (in days) the planet is at `s` and moves under the gravity `mu` of the central body. -/
def Moves (pl : ℝ → Res (RV ℝ)) (mu t : ℝ) (s : RV ℝ) (P : ℝ → RV ℝ) : Prop :=
  P t = s ∧ V3.norm s.r ≠ 0 ∧ (∀ᶠ u in 𝓝 t, pl u = .ok (P u)) ∧
  HasDerivAt (fun u => (P u).r.x) (86400 * s.v.x) t ∧ HasDerivAt (fun u => (P u).r.y) (86400 * s.v.y) t ∧
  HasDerivAt (fun u => (P u).r.z) (86400 * s.v.z) t ∧
  HasDerivAt (fun u => (P u).v.x) (86400 * (-mu * s.r.x / V3.norm s.r ^ 3)) t ∧
  HasDerivAt (fun u => (P u).v.y) (86400 * (-mu * s.r.y / V3.norm s.r ^ 3)) t ∧
  HasDerivAt (fun u => (P u).v.z) (86400 * (-mu * s.r.z / V3.norm s.r ^ 3)) t

/-- Rates of the six state components of a planet, per second. -/
noncomputable def rate (mu : ℝ) (s : RV ℝ) : Fin 6 → ℝ :=
  ![s.v.x, s.v.y, s.v.z, -mu * s.r.x / V3.norm s.r ^ 3, -mu * s.r.y / V3.norm s.r ^ 3, -mu * s.r.z / V3.norm s.r ^ 3]

/-- One if the variable is `col`. -/
noncomputable def ind (col k : ℕ) : ℝ := if k = col then 1 else 0

theorem ind_self (k : ℕ) : ind k k = 1 := if_pos rfl
theorem ind_ne {col k : ℕ} (h : k ≠ col) : ind col k = 0 := if_neg h

/-- A planet state plus a relative velocity, along a curve of epochs and of relative velocities. -/
theorem Moves.stateDeriv {pl : ℝ → Res (RV ℝ)} {mu t : ℝ} {s : RV ℝ} {P : ℝ → RV ℝ} (h : Moves pl mu t s P) {T : ℝ → ℝ} {T' : ℝ}
    (h0 : T 0 = t) (hT : HasDerivAt T T' 0) {a b c : ℝ → ℝ} {a' b' c' : ℝ} (ha : HasDerivAt a a' 0) (hb : HasDerivAt b b' 0)
    (hc : HasDerivAt c c' 0) :
    StateDeriv (fun e => ⟨(P (T e)).r, ⟨(P (T e)).v.x + a e, (P (T e)).v.y + b e, (P (T e)).v.z + c e⟩⟩)
      (fun j => rate mu s j * 86400 * T' + ![0, 0, 0, a', b', c'] j) := by
  obtain ⟨-, -, -, h1, h2, h3, h4, h5, h6⟩ := h
  subst h0
  intro r
  fin_cases r
  · exact (h1.comp 0 hT).congr_deriv (by show _ = s.v.x * 86400 * T' + 0; ring)
  · exact (h2.comp 0 hT).congr_deriv (by show _ = s.v.y * 86400 * T' + 0; ring)
  · exact (h3.comp 0 hT).congr_deriv (by show _ = s.v.z * 86400 * T' + 0; ring)
  · exact ((h4.comp 0 hT).add ha).congr_deriv (by show _ = -mu * s.r.x / V3.norm s.r ^ 3 * 86400 * T' + a'; ring)
  · exact ((h5.comp 0 hT).add hb).congr_deriv (by show _ = -mu * s.r.y / V3.norm s.r ^ 3 * 86400 * T' + b'; ring)
  · exact ((h6.comp 0 hT).add hc).congr_deriv (by show _ = -mu * s.r.z / V3.norm s.r ^ 3 * 86400 * T' + c'; ring)

/-- The leg along a change of one decision variable. -/
theorem legCurve {x : List ℝ} (hx : x.length = 9 + 3 * p.nseg) {col : ℕ} (hc : col < x.length) {mu : ℝ} {s f : RV ℝ}
    {S F : ℝ → RV ℝ} (hS : Moves p.pls mu (x.getD 0 0) s S)
    (hF : Moves p.plf mu (x.getD 0 0 + x.getD (x.length - 1) 0) f F) :
    LegCurve (fun e => p.legOf (S ((x.set col (x.getD col 0 + e)).getD 0 0))
        (F ((x.set col (x.getD col 0 + e)).getD 0 0 + (x.set col (x.getD col 0 + e)).getD (x.length - 1) 0))
        (x.set col (x.getD col 0 + e)))
      (fun j => rate mu s j * 86400 * ind col 0 + ![0, 0, 0, ind col 2, ind col 3, ind col 4] j) 0
      (fun j => rate mu f j * 86400 * (ind col 0 + ind col (x.length - 1)) + ![0, 0, 0, ind col 5, ind col 6, ind col 7] j)
      (ind col 1) (fun j => ind col (j + 8)) (ind col (x.length - 1) * 86400) where
  maxThrust _ := rfl
  isp _ := rfl
  mu _ := rfl
  nseg _ := rfl
  nsegFwd _ := rfl
  nsegBck _ := rfl
  len e := slice_length (m := 3 * p.nseg) (by simp only [List.length_set]; omega)
  rvs := hS.stateDeriv (T := fun e => (x.set col (x.getD col 0 + e)).getD 0 0)
    (by show (x.set col (x.getD col 0 + 0)).getD 0 0 = _; rw [set_self hc]) (hasDeriv_set hc 0) (hasDeriv_set hc 2) (hasDeriv_set hc 3) (hasDeriv_set hc 4)
  rvf := hF.stateDeriv
    (T := fun e => (x.set col (x.getD col 0 + e)).getD 0 0 + (x.set col (x.getD col 0 + e)).getD (x.length - 1) 0)
    (by show (x.set col (x.getD col 0 + 0)).getD 0 0 + (x.set col (x.getD col 0 + 0)).getD (x.length - 1) 0 = _
        rw [set_self hc]) ((hasDeriv_set hc 0).add (hasDeriv_set hc (x.length - 1))) (hasDeriv_set hc 5)
    (hasDeriv_set hc 6) (hasDeriv_set hc 7)
  ms := hasDerivAt_const _ _
  mf := hasDeriv_set hc 1
  th j hj := by
    refine HasDerivAt.congr_of_eventuallyEq (hasDeriv_set hc (j + 8)) (Eventually.of_forall fun e => ?_)
    rw [add_comm j 8]
    exact throttles_getD (m := 3 * p.nseg) (by simp only [List.length_set]; omega) j hj
  tof := by
    have := (hasDeriv_set hc (x.length - 1)).mul_const DAY2SEC
    simpa [legOf, DAY2SEC, ind] using this

theorem sum_ind (f : ℕ → ℝ) (n col : ℕ) : ∑ j ∈ Finset.range n, f j * ind col (j + 8) =
    if 8 ≤ col ∧ col < 8 + n then f (col - 8) else 0 := by
  unfold ind
  by_cases h : 8 ≤ col ∧ col < 8 + n
  · rw [if_pos h, Finset.sum_eq_single (col - 8)]
    · rw [if_pos (by omega), mul_one]
    · intro b _ hb
      rw [if_neg (by omega), mul_zero]
    · intro hb
      exact absurd (Finset.mem_range.2 (by omega)) hb
  · rw [if_neg h]
    refine Finset.sum_eq_zero fun j hj => ?_
    have := Finset.mem_range.1 hj
    rw [if_neg (by omega), mul_zero]

/-- The derivative of `C47_mc_grad` along one decision variable is the entry of the gradient. -/
theorem row_eq (mu : ℝ) (s f : RV ℝ) (gs gf g : List ℝ) (n : ℕ) (r : Fin 7) {col N : ℕ} (hN : N = 8 + 3 * n) (hc : col ≤ N) :
    (∑ j : Fin 6, gs.getD (7 * r + j) 0 * (rate mu s j * 86400 * ind col 0 + ![0, 0, 0, ind col 2, ind col 3, ind col 4] j) +
        gs.getD (7 * r + 6) 0 * 0) +
      (∑ j : Fin 6, gf.getD (7 * r + j) 0 * (rate mu f j * 86400 * (ind col 0 + ind col N) +
        ![0, 0, 0, ind col 5, ind col 6, ind col 7] j) + gf.getD (7 * r + 6) 0 * ind col 1) +
      (∑ j ∈ Finset.range (3 * n), g.getD ((3 * n + 1) * r + j) 0 * ind col (j + 8) +
        g.getD ((3 * n + 1) * r + 3 * n) 0 * (ind col N * 86400)) = rowJ mu s f gs gf g n 1 r col := by
  rw [sum_ind (fun j => g.getD ((3 * n + 1) * r + j) 0)]
  have hG : ∀ (a : List ℝ) (y : RV ℝ), (∑ j : Fin 6, a.getD (7 * r + j) 0 * rate mu y j) = mov mu a y r := by
    intro a y
    rw [Fin.sum_univ_six]
    simp [rate, mov]
    ring
  have split : ∀ (a : List ℝ) (y : RV ℝ) (k : ℝ) (w : Fin 6 → ℝ), ∑ j : Fin 6, a.getD (7 * r + j) 0 * (rate mu y j * 86400 * k + w j) =
      mov mu a y r * 86400 * k + ∑ j : Fin 6, a.getD (7 * r + j) 0 * w j := by
    intro a y k w
    rw [← hG, Finset.sum_mul, Finset.sum_mul, ← Finset.sum_add_distrib]
    exact Finset.sum_congr rfl fun j _ => by ring
  rw [split, split, Fin.sum_univ_six, Fin.sum_univ_six]
  simp only [Matrix.cons_val_zero, Matrix.cons_val_one, Matrix.cons_val, mul_zero, add_zero, zero_add]
  subst hN
  rcases (by omega : col = 0 ∨ col = 1 ∨ col = 2 ∨ col = 3 ∨ col = 4 ∨ col = 5 ∨ col = 6 ∨ col = 7 ∨ col = 8 + 3 * n ∨
    (8 ≤ col ∧ col < 8 + 3 * n)) with rfl | rfl | rfl | rfl | rfl | rfl | rfl | rfl | rfl | ⟨ha, hb⟩
  · simp only [ind_self, ind_ne (show 1 ≠ 0 by omega), ind_ne (show 2 ≠ 0 by omega), ind_ne (show 3 ≠ 0 by omega), ind_ne (show 4 ≠ 0 by omega), ind_ne (show 5 ≠ 0 by omega), ind_ne (show 6 ≠ 0 by omega), ind_ne (show 7 ≠ 0 by omega), ind_ne (show (8 + 3 * n) ≠ 0 by omega)]
    rw [if_neg (by omega)]
    unfold rowJ SEC2DAY DAY2SEC
    rw [if_pos rfl]
    ring
  · simp only [ind_ne (show 0 ≠ 1 by omega), ind_self, ind_ne (show 2 ≠ 1 by omega), ind_ne (show 3 ≠ 1 by omega), ind_ne (show 4 ≠ 1 by omega), ind_ne (show 5 ≠ 1 by omega), ind_ne (show 6 ≠ 1 by omega), ind_ne (show 7 ≠ 1 by omega), ind_ne (show (8 + 3 * n) ≠ 1 by omega)]
    rw [if_neg (by omega)]
    simp [rowJ]
  · simp only [ind_ne (show 0 ≠ 2 by omega), ind_ne (show 1 ≠ 2 by omega), ind_self, ind_ne (show 3 ≠ 2 by omega), ind_ne (show 4 ≠ 2 by omega), ind_ne (show 5 ≠ 2 by omega), ind_ne (show 6 ≠ 2 by omega), ind_ne (show 7 ≠ 2 by omega), ind_ne (show (8 + 3 * n) ≠ 2 by omega)]
    rw [if_neg (by omega)]
    simp [rowJ]
  · simp only [ind_ne (show 0 ≠ 3 by omega), ind_ne (show 1 ≠ 3 by omega), ind_ne (show 2 ≠ 3 by omega), ind_self, ind_ne (show 4 ≠ 3 by omega), ind_ne (show 5 ≠ 3 by omega), ind_ne (show 6 ≠ 3 by omega), ind_ne (show 7 ≠ 3 by omega), ind_ne (show (8 + 3 * n) ≠ 3 by omega)]
    rw [if_neg (by omega)]
    simp [rowJ]
  · simp only [ind_ne (show 0 ≠ 4 by omega), ind_ne (show 1 ≠ 4 by omega), ind_ne (show 2 ≠ 4 by omega), ind_ne (show 3 ≠ 4 by omega), ind_self, ind_ne (show 5 ≠ 4 by omega), ind_ne (show 6 ≠ 4 by omega), ind_ne (show 7 ≠ 4 by omega), ind_ne (show (8 + 3 * n) ≠ 4 by omega)]
    rw [if_neg (by omega)]
    simp [rowJ]
  · simp only [ind_ne (show 0 ≠ 5 by omega), ind_ne (show 1 ≠ 5 by omega), ind_ne (show 2 ≠ 5 by omega), ind_ne (show 3 ≠ 5 by omega), ind_ne (show 4 ≠ 5 by omega), ind_self, ind_ne (show 6 ≠ 5 by omega), ind_ne (show 7 ≠ 5 by omega), ind_ne (show (8 + 3 * n) ≠ 5 by omega)]
    rw [if_neg (by omega)]
    simp [rowJ]
  · simp only [ind_ne (show 0 ≠ 6 by omega), ind_ne (show 1 ≠ 6 by omega), ind_ne (show 2 ≠ 6 by omega), ind_ne (show 3 ≠ 6 by omega), ind_ne (show 4 ≠ 6 by omega), ind_ne (show 5 ≠ 6 by omega), ind_self, ind_ne (show 7 ≠ 6 by omega), ind_ne (show (8 + 3 * n) ≠ 6 by omega)]
    rw [if_neg (by omega)]
    simp [rowJ]
  · simp only [ind_ne (show 0 ≠ 7 by omega), ind_ne (show 1 ≠ 7 by omega), ind_ne (show 2 ≠ 7 by omega), ind_ne (show 3 ≠ 7 by omega), ind_ne (show 4 ≠ 7 by omega), ind_ne (show 5 ≠ 7 by omega), ind_ne (show 6 ≠ 7 by omega), ind_self, ind_ne (show (8 + 3 * n) ≠ 7 by omega)]
    rw [if_neg (by omega)]
    simp [rowJ]
  · simp only [ind_ne (show 0 ≠ (8 + 3 * n) by omega), ind_ne (show 1 ≠ (8 + 3 * n) by omega), ind_ne (show 2 ≠ (8 + 3 * n) by omega), ind_ne (show 3 ≠ (8 + 3 * n) by omega), ind_ne (show 4 ≠ (8 + 3 * n) by omega), ind_ne (show 5 ≠ (8 + 3 * n) by omega), ind_ne (show 6 ≠ (8 + 3 * n) by omega), ind_ne (show 7 ≠ (8 + 3 * n) by omega), ind_self]
    rw [if_neg (by omega)]
    unfold rowJ DAY2SEC
    rw [if_neg (by omega), if_neg (by omega), if_neg (by omega), if_neg (by omega), if_pos rfl]
    ring
  · simp only [ind_ne (show 0 ≠ col by omega), ind_ne (show 1 ≠ col by omega), ind_ne (show 2 ≠ col by omega), ind_ne (show 3 ≠ col by omega), ind_ne (show 4 ≠ col by omega), ind_ne (show 5 ≠ col by omega), ind_ne (show 6 ≠ col by omega), ind_ne (show 7 ≠ col by omega), ind_ne (show (8 + 3 * n) ≠ col by omega)]
    rw [if_pos ⟨ha, hb⟩]
    unfold rowJ
    rw [if_neg (by omega), if_neg (by omega), if_neg (by omega), if_neg (by omega), if_neg (by omega)]
    ring

theorem floor_le (o : p.Ok) : ⌊(p.nseg : ℝ) * p.leg.cut⌋₊ ≤ p.nseg := by
  have : (p.nseg : ℝ) * p.leg.cut ≤ p.nseg := by
    have h1 : (0 : ℝ) ≤ p.nseg := by positivity
    have := o.cut.2
    nlinarith
  exact (Nat.floor_le_floor this).trans (by simp)

theorem m_congr {g h : GradArgs} (h1 : g.us = h.us) (h2 : g.ms = h.ms) (h3 : g.c = h.c) (h4 : g.a = h.a) (i : ℕ) : g.m i = h.m i := by
  induction i with
  | zero => exact h2
  | succ i ih => simp only [GradArgs.m, ih, h3, h4, GradArgs.un, GradArgs.u, h1]

/-- The mass mismatch does not depend on the two end states. -/
theorem mass_congr {l k : Leg ℝ} (h1 : l.throttles = k.throttles) (h2 : l.ms = k.ms) (h3 : l.mf = k.mf) (h4 : l.tof = k.tof)
    (h5 : l.maxThrust = k.maxThrust) (h6 : l.isp = k.isp) (h7 : l.nseg = k.nseg) (h8 : l.nsegFwd = k.nsegFwd)
    (h9 : l.nsegBck = k.nsegBck) : (fwdEnd φ l).2 - (bckEnd φ l).2 = (fwdEnd φ k).2 - (bckEnd φ k).2 := by
  unfold fwdEnd bckEnd
  rw [h8, h9]
  have e1 : (fwdHalf l).m k.nsegFwd = (fwdHalf k).m k.nsegFwd :=
    m_congr (by simp only [fwdHalf, halfArgs, h1, h8]) (by simp only [fwdHalf, halfArgs, h2])
      (by simp only [fwdHalf, halfArgs, h4, h5, h7]) (by simp only [fwdHalf, halfArgs, h6]) _
  have e2 : (bckArgs (bckHalf l)).m k.nsegBck = (bckArgs (bckHalf k)).m k.nsegBck :=
    m_congr (by simp only [bckArgs, bckHalf, halfArgs, h1, h8]) (by simp only [bckArgs, bckHalf, halfArgs, h3])
      (by simp only [bckArgs, bckHalf, halfArgs, h4, h5, h7]) (by simp only [bckArgs, bckHalf, halfArgs, h6]) _
  split_ifs <;> simp only [h2, h3, e1, e2]

/-- **C56.** At every decision vector of the right length with positive final mass and time of flight and no zero throttle, when
the two planets move under the gravity of the leg's central body at departure and at arrival, for every propagator with its state
transition matrix at the visited states: the gradient is returned, it has one entry per pair of the sparsity, that entry is the
derivative of that fitness component with respect to that variable, and components do not depend on variables they are not paired
with. -/
theorem C56_gradient (hφ : Reversible φ) (o : p.Ok) {x : List ℝ} (hx : x.length = 9 + 3 * p.nseg) (hmf : 0 < x.getD 1 0)
    (htof : 0 < x.getD (x.length - 1) 0) (hth : ∀ u ∈ triples (slice 8 (x.length - 1) x), u ≠ 0) {s f : RV ℝ} {S F : ℝ → RV ℝ}
    (hS : Moves p.pls p.leg.mu (x.getD 0 0) s S)
    (hF : Moves p.plf p.leg.mu (x.getD 0 0 + x.getD (x.length - 1) 0) f F)
    {l : Leg ℝ} (hl : p.setLeg x = .ok (l, s, f))
    (hA : ∀ i, i ≤ l.nsegFwd → FlowDeriv φ Φ l.mu ((fwdHalf l).before φ i) ((fwdHalf l).dur i))
    (hB : ∀ i, i ≤ l.nsegBck → FlowDeriv φ Φ l.mu ((bckArgs (bckHalf l)).before φ i) ((bckArgs (bckHalf l)).dur i)) :
    ∃ grad, (p.gradient φ Φ x).run = .ok (some grad) ∧ IsJac (p.fitness φ) grad p.sparsity (1 + nec + p.nic) x := by
  have hs0 : p.pls (x.getD 0 0) = .ok s := by rw [hS.2.2.1.self_of_nhds, hS.1]
  have hf0 : p.plf (x.getD 0 0 + x.getD (x.length - 1) 0) = .ok f := by rw [hF.2.2.1.self_of_nhds, hF.1]
  have hle : l = p.legOf s f x := by
    have := hl
    rw [setLeg_eq o hx htof.le hs0 hf0] at this
    exact (congrArg Prod.fst (Res.ok.inj this)).symm
  subst hle
  have hfl := floor_le o
  have R : Regular (p.legOf s f x) :=
    { nseg := o.nseg
      split := by simp only [legOf]; omega
      tof := mul_pos htof DAY2SEC_pos
      maxThrust := o.thrust
      ms := o.ms
      mf := hmf
      th := hth }
  have hlen : (p.legOf s f x).throttles.length = 3 * (p.legOf s f x).nseg :=
    slice_length (m := 3 * p.nseg) (by rw [hx]; omega)
  obtain ⟨gs, gf, g, hm⟩ : ∃ gs gf g, mcGrad φ Φ (p.legOf s f x) = (gs, gf, g) := ⟨_, _, _, rfl⟩
  -- the leg along a change of variable `col`
  let X : ℕ → ℝ → List ℝ := fun col e => x.set col (x.getD col 0 + e)
  let L : ℕ → ℝ → Leg ℝ := fun col e => p.legOf (S ((X col e).getD 0 0)) (F ((X col e).getD 0 0 + (X col e).getD (x.length - 1) 0)) (X col e)
  have key : ∀ col, col < x.length → gs.length = 49 ∧ gf.length = 49 ∧ g.length = 7 * (3 * p.nseg + 1) ∧ ∃ D : ℝ → RV ℝ × ℝ,
      (∀ᶠ e in 𝓝 0, computeMismatch (fun y t => some (φ y t)) (L col e) = .ok (some (D e).1, (D e).2)) ∧
      ∀ r : Fin 7, HasDerivAt (fun e => vec7 (D e).1 (D e).2 r) (rowJ p.leg.mu s f gs gf g p.nseg 1 r col) 0 := by
    intro col hc
    have e0 : p.legOf (S ((x.set col (x.getD col 0 + 0)).getD 0 0))
        (F ((x.set col (x.getD col 0 + 0)).getD 0 0 + (x.set col (x.getD col 0 + 0)).getD (x.length - 1) 0))
        (x.set col (x.getD col 0 + 0)) = p.legOf s f x := by rw [set_self hc, hS.1, hF.1]
    obtain ⟨gs', gf', g', hm', hgs, hgf, hg, D, hD, hd⟩ := C47_mc_grad (Φ := Φ) hφ (legCurve hx hc hS hF) (by rw [e0]; exact R)
      (by rw [e0]; exact hA) (by rw [e0]; exact hB)
    rw [e0] at hm' hg hd
    rw [hm] at hm'
    simp only [Prod.mk.injEq] at hm'
    obtain ⟨rfl, rfl, rfl⟩ := hm'
    refine ⟨hgs, hgf, hg, D, hD, fun r => ?_⟩
    refine (hd r).congr_deriv ?_
    exact row_eq p.leg.mu s f gs gf g p.nseg r (by omega) (by omega)
  obtain ⟨hgs, hgf, hg, -⟩ := key 0 (by omega)
  refine ⟨_, gradient_eq hx hl rfl hlen hm hgs hgf hg o.mass o.r o.v hS.2.1 hF.2.1, by simp, fun col hc => ?_⟩
  obtain ⟨-, -, -, D, hD, hd⟩ := key col hc
  have hN : 1 + nec + p.nic = 10 + p.nseg := by unfold nec nic; omega
  have ht : ∀ᶠ e in 𝓝 (0 : ℝ), 0 < (X col e).getD (x.length - 1) 0 := by
    refine (hasDeriv_set hc (x.length - 1)).continuousAt.eventually_const_lt ?_
    show 0 < (x.set col (x.getD col 0 + 0)).getD (x.length - 1) 0
    rw [set_self hc]; exact htof
  have hm1 : ∀ᶠ e in 𝓝 (0 : ℝ), 0 < (X col e).getD 1 0 := by
    refine (hasDeriv_set hc 1).continuousAt.eventually_const_lt ?_
    show 0 < (x.set col (x.getD col 0 + 0)).getD 1 0
    rw [set_self hc]; exact hmf
  refine ⟨fun e => (List.range (10 + p.nseg)).map (p.val (D e) (X col e)), ?_, fun e => by simp [hN], ?_, ?_⟩
  · have hs1 : ∀ᶠ e in 𝓝 (0 : ℝ), p.pls ((X col e).getD 0 0) = .ok (S ((X col e).getD 0 0)) := by
      have hcont : Tendsto (fun e => (X col e).getD 0 0) (𝓝 0) (𝓝 (x.getD 0 0)) := by
        have := (hasDeriv_set hc 0).continuousAt.tendsto
        rwa [set_self hc] at this
      exact hcont.eventually hS.2.2.1
    have hf1 : ∀ᶠ e in 𝓝 (0 : ℝ), p.plf ((X col e).getD 0 0 + (X col e).getD (x.length - 1) 0) =
        .ok (F ((X col e).getD 0 0 + (X col e).getD (x.length - 1) 0)) := by
      have hcont : Tendsto (fun e => (X col e).getD 0 0 + (X col e).getD (x.length - 1) 0) (𝓝 0)
          (𝓝 (x.getD 0 0 + x.getD (x.length - 1) 0)) := by
        have := ((hasDeriv_set hc 0).add (hasDeriv_set hc (x.length - 1))).continuousAt.tendsto
        simp only [Pi.add_apply] at this
        rwa [set_self hc] at this
      exact hcont.eventually hF.2.2.1
    filter_upwards [hD, ht, hs1, hf1] with e h1 h2 h3 h4
    have hlx : (X col e).length = x.length := List.length_set
    exact fitness_eq o (by rw [hlx, hx]) (setLeg_eq o (by rw [hlx, hx]) (by rw [hlx]; exact h2.le) h3 (by rw [hlx]; exact h4)) h1
  · intro k r hk
    have hmem : (r, col) ∈ p.sparsity := List.mem_of_getElem? hk
    have hgk : (p.sparsity.map (p.J (p.legOf s f x).mu s f gs gf g x (p.legOf s f x).throttles)).getD k 0 =
        p.J p.leg.mu s f gs gf g x (p.legOf s f x).throttles (r, col) := by
      rw [List.getD_eq_getElem?_getD, List.getElem?_map, hk]; rfl
    rw [hgk]
    rw [mem_sparsity] at hmem
    have hr : r < 10 + p.nseg := by omega
    simp only [getD_map_range hr]
    have d : ∀ k, HasDerivAt (fun e => (X col e).getD k 0) (ind col k) 0 := fun k => hasDeriv_set hc k
    have hX0 : ∀ k, (X col 0).getD k 0 = x.getD k 0 := by
      intro k
      show (x.set col (x.getD col 0 + 0)).getD k 0 = _
      rw [set_self hc]
    by_cases c0 : r = 0
    · subst c0
      obtain rfl : col = 1 := by omega
      have := ((d 1).neg).div_const p.massScaling
      rw [ind_self] at this
      exact this
    by_cases c7 : r ≤ 7
    · obtain ⟨i, rfl⟩ : ∃ i, r = i + 1 := ⟨r - 1, by omega⟩
      have e1 : (fun e => p.val (D e) (X col e) (i + 1)) = fun e => vec7 (D e).1 (D e).2 ⟨i, by omega⟩ / p.sc i := by
        funext e
        unfold val
        rw [if_neg (by omega), if_pos c7, Nat.add_sub_cancel, ← P2P.list7_getD]
      rw [e1]
      refine ((hd ⟨i, by omega⟩).div_const (p.sc i)).congr_deriv ?_
      unfold J rowJ
      simp only [if_neg (Nat.succ_ne_zero i), if_pos c7, Nat.add_sub_cancel, div_one]
      split_ifs <;> ring
    by_cases c8 : r < 8 + p.nseg
    · obtain ⟨i, rfl⟩ : ∃ i, r = 8 + i := ⟨r - 8, by omega⟩
      have e1 : (fun e => p.val (D e) (X col e) (8 + i)) = fun e =>
          (X col e).getD (3 * i + 8) 0 * (X col e).getD (3 * i + 8) 0 + (X col e).getD (3 * i + 9) 0 * (X col e).getD (3 * i + 9) 0 +
          (X col e).getD (3 * i + 10) 0 * (X col e).getD (3 * i + 10) 0 - 1 := by
        funext e
        unfold val
        rw [if_neg (by omega), if_neg (by omega), if_pos c8, Nat.add_sub_cancel_left]
      rw [e1]
      refine (((((d (3 * i + 8)).mul (d (3 * i + 8))).add ((d (3 * i + 9)).mul (d (3 * i + 9)))).add
        ((d (3 * i + 10)).mul (d (3 * i + 10)))).sub_const 1).congr_deriv ?_
      rw [hX0, hX0, hX0]
      have e2 : p.J p.leg.mu s f gs gf g x (p.legOf s f x).throttles (8 + i, col) = 2 * x.getD col 0 := by
        unfold J tcEntry
        simp only []
        rw [if_neg (show ¬8 + i = 0 by omega), if_neg (show ¬8 + i ≤ 7 by omega), if_pos c8, Nat.add_sub_cancel_left,
          if_pos (by omega)]
        have := throttles_getD (x := x) (a := 8) (m := 3 * p.nseg) (by rw [hx]; omega) (col - 8) (by omega)
        rw [show 8 + (col - 8) = col by omega] at this
        rw [← this]; rfl
      rw [e2]
      rcases (by omega : col = 3 * i + 8 ∨ col = 3 * i + 9 ∨ col = 3 * i + 10) with rfl | rfl | rfl
      · rw [ind_self, ind_ne (by omega), ind_ne (by omega)]; ring
      · rw [ind_self, ind_ne (by omega), ind_ne (by omega)]; ring
      · rw [ind_self, ind_ne (by omega), ind_ne (by omega)]; ring
    · have e2 : p.J p.leg.mu s f gs gf g x (p.legOf s f x).throttles (r, col) = 2 * x.getD col 0 / p.vScaling ^ 2 := by
        unfold J
        simp only [if_neg c0, if_neg c7, if_neg c8]
      rw [e2]
      have sq : ∀ a b c : ℕ, ∀ v : ℝ, HasDerivAt (fun e => ((X col e).getD a 0 ^ 2 + (X col e).getD b 0 ^ 2 + (X col e).getD c 0 ^ 2 - v) /
          p.vScaling ^ 2) ((2 * x.getD a 0 * ind col a + 2 * x.getD b 0 * ind col b + 2 * x.getD c 0 * ind col c) / p.vScaling ^ 2) 0 := by
        intro a b c v
        refine ((((((d a).pow 2).add ((d b).pow 2)).add ((d c).pow 2)).sub_const v).div_const _).congr_deriv ?_
        rw [hX0, hX0, hX0]; norm_num
      by_cases c9 : r = 8 + p.nseg
      · have e1 : (fun e => p.val (D e) (X col e) r) = fun e =>
            ((X col e).getD 2 0 ^ 2 + (X col e).getD 3 0 ^ 2 + (X col e).getD 4 0 ^ 2 - p.vinfs ^ 2) / p.vScaling ^ 2 := by
          funext e
          unfold val
          rw [if_neg c0, if_neg c7, if_neg c8, if_pos c9]
        rw [e1]
        refine (sq 2 3 4 _).congr_deriv ?_
        congr 1
        rcases (by omega : col = 2 ∨ col = 3 ∨ col = 4) with rfl | rfl | rfl <;> simp [ind]
      · have e1 : (fun e => p.val (D e) (X col e) r) = fun e =>
            ((X col e).getD 5 0 ^ 2 + (X col e).getD 6 0 ^ 2 + (X col e).getD 7 0 ^ 2 - p.vinff ^ 2) / p.vScaling ^ 2 := by
          funext e
          unfold val
          rw [if_neg c0, if_neg c7, if_neg c8, if_neg c9]
        rw [e1]
        refine (sq 5 6 7 _).congr_deriv ?_
        congr 1
        rcases (by omega : col = 5 ∨ col = 6 ∨ col = 7) with rfl | rfl | rfl <;> simp [ind]
  · intro r hr hnot
    rw [hN] at hr
    rw [mem_sparsity] at hnot
    have e1 : ∀ e k, k ≠ col → (X col e).getD k 0 = (X col 0).getD k 0 := by
      intro e k hk
      show (x.set col _).getD k 0 = (x.set col _).getD k 0
      rw [getD_set hc, getD_set hc, if_neg hk, if_neg hk]
    have hD' : ∀ᶠ e in 𝓝 (0 : ℝ), (D e).2 = (fwdEnd φ (L col e)).2 - (bckEnd φ (L col e)).2 := by
      filter_upwards [hD, ht, hm1] with e h1 h2 h3
      have h4 := mismatch_eq φ hφ (L col e) (slice_length (m := 3 * p.nseg) (by simp only [X, List.length_set]; omega))
        (by simp only [L, legOf]; omega) (mul_nonneg (by simp only [X, List.length_set]; exact h2.le) DAY2SEC_pos.le) o.thrust o.ms h3
      rw [h1] at h4
      exact congrArg Prod.snd (Res.ok.inj h4)
    filter_upwards [hD'] with e hDe
    simp only [getD_map_range hr]
    unfold val
    by_cases c0 : r = 0
    · rw [if_pos c0, if_pos c0, e1 e 1 (by omega)]
    rw [if_neg c0, if_neg c0]
    by_cases c7 : r ≤ 7
    · obtain rfl : r = 7 := by omega
      rw [if_pos c7, if_pos c7]
      have h0 := hD'.self_of_nhds
      show (D e).2 / _ = (D 0).2 / _
      rw [hDe, h0]
      congr 1
      have hxs : slice 8 ((X col e).length - 1) (X col e) = slice 8 ((X col 0).length - 1) (X col 0) := by
        refine List.ext_getElem? fun k => ?_
        simp only [slice, X, List.length_set, List.getElem?_drop, List.getElem?_take]
        split_ifs with hk
        · rw [List.getElem?_set_ne (by omega), List.getElem?_set_ne (by omega)]
        · rfl
      refine mass_congr hxs rfl (e1 e 1 (by omega)) ?_ rfl rfl rfl rfl rfl
      show (X col e).getD ((X col e).length - 1) 0 * DAY2SEC = (X col 0).getD ((X col 0).length - 1) 0 * DAY2SEC
      rw [show (X col e).length = x.length from List.length_set, show (X col 0).length = x.length from List.length_set,
        e1 e _ (by omega)]
    rw [if_neg c7, if_neg c7]
    by_cases c8 : r < 8 + p.nseg
    · rw [if_pos c8, if_pos c8, e1 e _ (by omega), e1 e (3 * (r - 8) + 9) (by omega), e1 e (3 * (r - 8) + 10) (by omega)]
    rw [if_neg c8, if_neg c8]
    by_cases c9 : r = 8 + p.nseg
    · rw [if_pos c9, if_pos c9, e1 e 2 (by omega), e1 e 3 (by omega), e1 e 4 (by omega)]
    · rw [if_neg c9, if_neg c9, e1 e 5 (by omega), e1 e 6 (by omega), e1 e 7 (by omega)]

/-! ## Dimensions and bounds -/

/-- **C56.** The declared bounds have one entry per decision variable; the sparsity lists no pair twice, only pairs in range, and
exactly: the objective with the final mass, the position and velocity mismatches with everything, the mass mismatch with the final
mass, the throttles and the time of flight, each throttle constraint with its throttle and the two constraints on relative velocities
with theirs. -/
theorem C56_dimensions (p : Pl2Pl) : p.bounds.1.length = 9 + 3 * p.nseg ∧ p.bounds.2.length = 9 + 3 * p.nseg ∧
    p.sparsity.Nodup ∧ (∀ rc ∈ p.sparsity, rc.1 < 1 + nec + p.nic ∧ rc.2 < 9 + 3 * p.nseg) ∧
    p.sparsity.length = 1 + 6 * (9 + 3 * p.nseg) + (2 + 3 * p.nseg) + 3 * p.nseg + 6 ∧
    ∀ r c, (r, c) ∈ p.sparsity ↔ (r = 0 ∧ c = 1) ∨ (1 ≤ r ∧ r ≤ 6 ∧ c < 9 + 3 * p.nseg) ∨
      (r = 7 ∧ (c = 1 ∨ (8 ≤ c ∧ c < 9 + 3 * p.nseg))) ∨
      (8 ≤ r ∧ r < 8 + p.nseg ∧ 3 * (r - 8) + 8 ≤ c ∧ c ≤ 3 * (r - 8) + 10) ∨
      (r = 8 + p.nseg ∧ 2 ≤ c ∧ c ≤ 4) ∨ (r = 9 + p.nseg ∧ 5 ≤ c ∧ c ≤ 7) := by
  refine ⟨?_, ?_, nodup_sparsity p, ?_, ?_, fun r c => mem_sparsity⟩
  · simp [bounds]; ring
  · simp [bounds]; ring
  · rintro ⟨r, c⟩ h
    rw [mem_sparsity] at h
    unfold nec nic
    simp only
    omega
  · rw [sparsity_eq]
    simp [List.length_flatMap]
    ring

theorem bounds_last (a b u v y : ℝ) (t : List ℝ) (n : ℕ) (ht : t.length = 3) :
    ([a, b] ++ List.replicate 3 u ++ List.replicate 3 v ++ (List.replicate n t).flatten ++ [y]).getD (8 + 3 * n) 0 = y := by
  rw [List.getD_eq_getElem?_getD, List.getElem?_append_right (by simp [ht]; omega)]
  simp [ht, show 8 + 3 * n - (n * 3 + (3 + (3 + 2))) = 0 by omega]

/-- C56. The bounds: the departure epoch, the final mass and the time of flight are free within the ranges given, the relative
velocities within the sizes given, and the throttles have components between -1 and 1; so everything the constraints allow is
within the bounds. -/
theorem C56_bounds (p : Pl2Pl) (t0 mf t : ℝ) (a b : V3 ℝ) (us : List (V3 ℝ)) (hu : us.length = p.nseg) :
    (P2P.InBounds p.bounds ([t0, mf, a.x, a.y, a.z, b.x, b.y, b.z] ++ P2P.flat us ++ [t]) ↔
      (p.t0Bounds.1 ≤ t0 ∧ t0 ≤ p.t0Bounds.2) ∧ (p.mfBounds.1 ≤ mf ∧ mf ≤ p.mfBounds.2) ∧
      (p.tofBounds.1 ≤ t ∧ t ≤ p.tofBounds.2) ∧ (|a.x| ≤ p.vinfs ∧ |a.y| ≤ p.vinfs ∧ |a.z| ≤ p.vinfs) ∧
      (|b.x| ≤ p.vinff ∧ |b.y| ≤ p.vinff ∧ |b.z| ≤ p.vinff) ∧ ∀ u ∈ us, |u.x| ≤ 1 ∧ |u.y| ≤ 1 ∧ |u.z| ≤ 1) ∧
    (p.t0Bounds.1 ≤ t0 → t0 ≤ p.t0Bounds.2 → p.mfBounds.1 ≤ mf → mf ≤ p.mfBounds.2 → p.tofBounds.1 ≤ t → t ≤ p.tofBounds.2 →
      V3.norm a ≤ p.vinfs → V3.norm b ≤ p.vinff → (∀ u ∈ us, V3.norm u ≤ 1) →
      P2P.InBounds p.bounds ([t0, mf, a.x, a.y, a.z, b.x, b.y, b.z] ++ P2P.flat us ++ [t])) := by
  have key : P2P.InBounds p.bounds ([t0, mf, a.x, a.y, a.z, b.x, b.y, b.z] ++ P2P.flat us ++ [t]) ↔
      (p.t0Bounds.1 ≤ t0 ∧ t0 ≤ p.t0Bounds.2) ∧ (p.mfBounds.1 ≤ mf ∧ mf ≤ p.mfBounds.2) ∧
      (p.tofBounds.1 ≤ t ∧ t ≤ p.tofBounds.2) ∧ (|a.x| ≤ p.vinfs ∧ |a.y| ≤ p.vinfs ∧ |a.z| ≤ p.vinfs) ∧
      (|b.x| ≤ p.vinff ∧ |b.y| ≤ p.vinff ∧ |b.z| ≤ p.vinff) ∧ ∀ u ∈ us, |u.x| ≤ 1 ∧ |u.y| ≤ 1 ∧ |u.z| ≤ 1 := by
    unfold P2P.InBounds bounds
    simp only [List.replicate_succ, List.replicate_zero, List.singleton_append, List.cons_append, List.nil_append,
      List.append_nil, List.forall₂_cons]
    rw [← hu, P2P.forall₂_lower, P2P.forall₂_upper]
    simp only [abs_le]
    constructor
    · rintro ⟨⟨h1, h2, a1, a2, a3, b1, b2, b3, h3, h4⟩, h1', h2', a1', a2', a3', b1', b2', b3', h3', h4'⟩
      exact ⟨⟨h1, h1'⟩, ⟨h2, h2'⟩, ⟨h3, h3'⟩, ⟨⟨a1, a1'⟩, ⟨a2, a2'⟩, a3, a3'⟩, ⟨⟨b1, b1'⟩, ⟨b2, b2'⟩, b3, b3'⟩, fun u hu =>
        ⟨⟨(h4 u hu).1, (h4' u hu).1⟩, ⟨(h4 u hu).2.1, (h4' u hu).2.1⟩, (h4 u hu).2.2, (h4' u hu).2.2⟩⟩
    · rintro ⟨⟨h1, h1'⟩, ⟨h2, h2'⟩, ⟨h3, h3'⟩, ⟨⟨a1, a1'⟩, ⟨a2, a2'⟩, a3, a3'⟩, ⟨⟨b1, b1'⟩, ⟨b2, b2'⟩, b3, b3'⟩, h⟩
      exact ⟨⟨h1, h2, a1, a2, a3, b1, b2, b3, h3, fun u hu => ⟨(h u hu).1.1, (h u hu).2.1.1, (h u hu).2.2.1⟩⟩,
        h1', h2', a1', a2', a3', b1', b2', b3', h3', fun u hu => ⟨(h u hu).1.2, (h u hu).2.1.2, (h u hu).2.2.2⟩⟩
  exact ⟨key, fun h1 h2 h3 h4 h5 h6 h7 h8 h9 => key.2 ⟨⟨h1, h2⟩, ⟨h3, h4⟩, ⟨h5, h6⟩, P2P.abs_le_of_norm h7,
    P2P.abs_le_of_norm h8, fun u hu => P2P.abs_le_of_norm (h9 u hu)⟩⟩

/-- **C56.** With bounds of positive masses and times of flight that are not negative, every decision vector within the bounds for
which the two planets have an ephemeris is accepted: the leg starts at the departure planet's position at `t0` with the planet's
velocity plus `Vs`, ends at the arrival planet's position at `t0 + tof` with the planet's velocity plus `Vf`, with the final mass,
throttles and time of flight (in seconds) of the decision vector; the fitness has the objective, the scaled mismatches of that leg,
the throttle constraints and the two scaled constraints on the relative velocities, in this order. -/
theorem C56_fitness (hφ : Reversible φ) (o : p.Ok) (hm : 0 < p.mfBounds.1) (ht : 0 ≤ p.tofBounds.1) {x : List ℝ}
    (hx : P2P.InBounds p.bounds x) {s f : RV ℝ} (hs : p.pls (x.getD 0 0) = .ok s)
    (hf : p.plf (x.getD 0 0 + x.getD (x.length - 1) 0) = .ok f) :
    ∃ (fit : List ℝ) (l : Leg ℝ) (d : RV ℝ × ℝ) (t0 tof : ℝ) (a b : V3 ℝ), (p.fitness φ x).run = .ok (some fit) ∧
      fit.length = 1 + nec + p.nic ∧ x = [t0, l.mf, a.x, a.y, a.z, b.x, b.y, b.z] ++ l.throttles ++ [tof] ∧
      p.pls t0 = .ok s ∧ p.plf (t0 + tof) = .ok f ∧ l.rvs = ⟨s.r, s.v + a⟩ ∧ l.rvf = ⟨f.r, f.v + b⟩ ∧
      l.tof = tof * 86400 ∧ l.nseg = p.nseg ∧ l.ms = p.leg.ms ∧ l.maxThrust = p.leg.maxThrust ∧ l.isp = p.leg.isp ∧
      l.mu = p.leg.mu ∧ l.cut = p.leg.cut ∧
      computeMismatch (fun y t => some (φ y t)) l = .ok (some d.1, d.2) ∧
      fit = [-l.mf / p.massScaling, d.1.r.x / p.rScaling, d.1.r.y / p.rScaling, d.1.r.z / p.rScaling, d.1.v.x / p.vScaling,
        d.1.v.y / p.vScaling, d.1.v.z / p.vScaling, d.2 / p.massScaling] ++
        ((triples l.throttles).map fun u => u.x ^ 2 + u.y ^ 2 + u.z ^ 2 - 1) ++
        [(a.x ^ 2 + a.y ^ 2 + a.z ^ 2 - p.vinfs ^ 2) / p.vScaling ^ 2, (b.x ^ 2 + b.y ^ 2 + b.z ^ 2 - p.vinff ^ 2) / p.vScaling ^ 2] := by
  have hlen : x.length = 9 + 3 * p.nseg := by
    rw [← hx.1.length_eq]; exact (C56_dimensions p).1
  have h0 : 0 < x.getD 1 0 := by
    have := P2P.forall₂_getD hx.1 1
    exact lt_of_lt_of_le (by simpa [bounds] using hm) this
  have hT : 0 ≤ x.getD (x.length - 1) 0 := by
    have := P2P.forall₂_getD hx.1 (x.length - 1)
    refine le_trans ?_ this
    rw [hlen, show 9 + 3 * p.nseg - 1 = 8 + 3 * p.nseg by omega]
    unfold bounds
    rw [bounds_last _ _ _ _ _ _ _ (by simp)]
    exact ht
  have hfl := floor_le o
  have hth : (p.legOf s f x).throttles.length = 3 * p.nseg := slice_length (m := 3 * p.nseg) (by rw [hlen]; omega)
  have := mismatch_eq φ hφ (p.legOf s f x) hth (by simp only [legOf]; omega)
    (mul_nonneg hT DAY2SEC_pos.le) o.thrust o.ms h0
  refine ⟨_, p.legOf s f x, (_, _), x.getD 0 0, x.getD (x.length - 1) 0, ⟨x.getD 2 0, x.getD 3 0, x.getD 4 0⟩,
    ⟨x.getD 5 0, x.getD 6 0, x.getD 7 0⟩, fitness_eq (d := (_, _)) o hlen (setLeg_eq o hlen hT hs hf) this, by simp [nec, nic]; ring, ?_, hs, hf,
    rfl, rfl, ?_, rfl, rfl, rfl, rfl, rfl, rfl, this, ?_⟩
  · refine List.ext_getElem? fun k => ?_
    by_cases hk : k < x.length
    · rw [getElem?_getD hk]
      rcases (by omega : k < 8 ∨ (8 ≤ k ∧ k < 8 + 3 * p.nseg) ∨ k = 8 + 3 * p.nseg) with k8 | ⟨k1, k2⟩ | rfl
      · rw [List.getElem?_append_left (by simp; omega), List.getElem?_append_left (by simpa using k8)]
        interval_cases k <;> rfl
      · rw [List.getElem?_append_left (by simp [hth]; omega), List.getElem?_append_right (by simpa using k1)]
        simp only [List.length_cons, List.length_nil]
        rw [getElem?_getD (by rw [hth]; omega)]
        have := throttles_getD (x := x) (a := 8) (m := 3 * p.nseg) (by rw [hlen]; omega) (k - 8) (by omega)
        rw [show 8 + (k - 8) = k by omega] at this
        rw [← this]; rfl
      · rw [List.getElem?_append_right (by simp [hth]; omega), List.length_append, hth]
        rw [hlen, show 9 + 3 * p.nseg - 1 = 8 + 3 * p.nseg by omega]
        simp [show 8 + 3 * p.nseg - (8 + 3 * p.nseg) = 0 by omega]
    · rw [List.getElem?_eq_none (by omega), List.getElem?_eq_none (by simp [hth]; omega)]
  · simp [legOf, DAY2SEC]
  · have hc := constraints_eq (l := p.legOf s f x) hth
    rw [throttleConstraints_eq _ hth] at hc
    have hc := Res.ok.inj hc
    have e1 : ((triples (p.legOf s f x).throttles).map fun u => u.x ^ 2 + u.y ^ 2 + u.z ^ 2 - 1) =
        (triples (p.legOf s f x).throttles).map fun u => V3.dot u u - 1 :=
      List.map_congr_left fun u _ => by unfold V3.dot; ring
    rw [e1, hc, show 10 + p.nseg = 8 + p.nseg + 2 by ring, List.range_add, List.range_add, List.map_append, List.map_append]
    congr 1
    · congr 1
      simp only [List.map_map]
      refine List.map_congr_left fun i hi => ?_
      have hi' := List.mem_range.1 hi
      have hi2 : i < p.nseg := hi'
      have e : ∀ c, c < 3 * p.nseg → (p.legOf s f x).throttles.getD c 0 = x.getD (c + 8) 0 := by
        intro c hc
        rw [add_comm]
        exact throttles_getD (m := 3 * p.nseg) (by rw [hlen]; omega) c hc
      rw [e _ (by omega), e _ (by omega), e _ (by omega)]
      simp only [Function.comp, val]
      rw [if_neg (by omega), if_neg (by omega), if_pos (by omega), Nat.add_sub_cancel_left]
    · simp only [List.range_succ, List.range_zero, List.map_append, List.map_cons, List.map_nil, List.nil_append, val]
      rw [if_neg (by omega), if_neg (by omega), if_neg (by omega), if_pos (by omega), if_neg (by omega), if_neg (by omega),
        if_neg (by omega), if_neg (by omega)]
      rfl

/-- Two segments in free space, between two planets that move uniformly. -/
noncomputable def exP : Pl2Pl :=
  let leg : Leg ℝ :=
    { rvs := ⟨⟨0, 0, 0⟩, ⟨0, 0, 0⟩⟩, ms := 1, throttles := [], rvf := ⟨⟨0, 0, 0⟩, ⟨0, 0, 0⟩⟩, mf := 0, tof := 0, maxThrust := 1,
      isp := 1, mu := 0, cut := 1 / 2, nseg := 0, nsegFwd := 0, nsegBck := 0 }
  Pl2Pl.init leg (fun t => .ok ⟨⟨1 + 86400 * t, 0, 0⟩, ⟨1, 0, 0⟩⟩) (fun t => .ok ⟨⟨0, 86400 * t, 0⟩, ⟨0, 1, 0⟩⟩) (0, 10) (1, 2) (1 / 2, 1)
    3 1 2 2 3 5

/-- The hypotheses of C56 are met: a vector within the bounds that has a gradient of 111 entries. -/
theorem C56_example : exP.Ok ∧ P2P.InBounds exP.bounds [4, 1, 1, 2, 3, 4, 5, 6, 1, 0, 0, 0, 1, 0, 1] ∧ exP.sparsity.length = 111 ∧
    ∃ grad, (exP.gradient inertial inertialSTM [4, 1, 1, 2, 3, 4, 5, 6, 1, 0, 0, 0, 1, 0, 1]).run = .ok (some grad) ∧
      IsJac (exP.fitness inertial) grad exP.sparsity 12 [4, 1, 1, 2, 3, 4, 5, 6, 1, 0, 0, 0, 1, 0, 1] := by
  have o : exP.Ok := by refine ⟨?_, ?_, ?_, ?_, ?_, ?_, ?_, ?_⟩ <;> norm_num [exP, init]
  refine ⟨o, ⟨?_, ?_⟩, ?_, ?_⟩
  · norm_num [bounds, exP, init, List.replicate_succ]
  · norm_num [bounds, exP, init, List.replicate_succ]
  · rw [(C56_dimensions exP).2.2.2.2.1]; simp [exP, init]
  · have lin : ∀ a t : ℝ, HasDerivAt (fun u : ℝ => a + 86400 * u) 86400 t := by
      intro a t
      simpa using ((hasDerivAt_id t).const_mul 86400).const_add a
    have hS : Moves exP.pls exP.leg.mu 4 ⟨⟨1 + 86400 * 4, 0, 0⟩, ⟨1, 0, 0⟩⟩ (fun t => ⟨⟨1 + 86400 * t, 0, 0⟩, ⟨1, 0, 0⟩⟩) := by
      refine ⟨rfl, ?_, Eventually.of_forall fun _ => rfl, ?_, ?_, ?_, ?_, ?_, ?_⟩
      · unfold V3.norm V3.dot; norm_num
      · exact (lin 1 4).congr_deriv (by norm_num)
      all_goals exact (hasDerivAt_const _ _).congr_deriv (by norm_num [exP, init])
    have hF : Moves exP.plf exP.leg.mu (4 + 1) ⟨⟨0, 86400 * (4 + 1), 0⟩, ⟨0, 1, 0⟩⟩ (fun t => ⟨⟨0, 86400 * t, 0⟩, ⟨0, 1, 0⟩⟩) := by
      refine ⟨rfl, ?_, Eventually.of_forall fun _ => rfl, ?_, ?_, ?_, ?_, ?_, ?_⟩
      · unfold V3.norm V3.dot; norm_num
      · exact (hasDerivAt_const _ _).congr_deriv (by norm_num)
      · have := lin 0 (4 + 1)
        simp only [zero_add] at this
        exact this.congr_deriv (by norm_num)
      all_goals exact (hasDerivAt_const _ _).congr_deriv (by norm_num [exP, init])
    have hl := setLeg_eq (x := [4, 1, 1, 2, 3, 4, 5, 6, 1, 0, 0, 0, 1, 0, 1]) o (by simp [exP, init]) (by simp)
      (s := ⟨⟨1 + 86400 * 4, 0, 0⟩, ⟨1, 0, 0⟩⟩) (f := ⟨⟨0, 86400 * (4 + 1), 0⟩, ⟨0, 1, 0⟩⟩) rfl rfl
    exact C56_gradient (Φ := inertialSTM) (x := [4, 1, 1, 2, 3, 4, 5, 6, 1, 0, 0, 0, 1, 0, 1]) inertial_reversible o (by simp [exP, init])
      (by simp) (by simp) (by
        intro u hu
        simp only [slice, triples, List.length_cons, List.length_nil, Nat.add_sub_cancel, List.take_succ_cons, List.take_zero,
          List.drop_succ_cons, List.drop_zero, List.mem_cons, List.not_mem_nil, or_false] at hu
        rcases hu with rfl | rfl
        · intro h; have := congrArg V3.x h; norm_num at this
        · intro h; have := congrArg V3.y h; norm_num at this) hS hF hl
      (fun i _ => inertial_flowDeriv _ _) (fun i _ => inertial_flowDeriv _ _)

end Pl2Pl
end Kep3.Direct
