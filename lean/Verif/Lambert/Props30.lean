import Verif.Lambert.Root
import Verif.Lagr.Unique

/-!
# C30: validation and shape of the solution lists; C31: each pair of velocities belongs to one orbit
-/

namespace Kep3
open Real V3

namespace Lambert

/-- Half of the perimeter of the triangle of the two positions and the centre. -/
noncomputable def semiPerimeter (r0 r1 : V3 ℝ) : ℝ := (norm (r1 - r0) + norm r0 + norm r1) / 2
/-- The time of flight in the unit of the solver. -/
noncomputable def nonDim (r0 r1 : V3 ℝ) (tof mu : ℝ) : ℝ :=
  √(2 * mu / semiPerimeter r0 r1 / semiPerimeter r0 r1 / semiPerimeter r0 r1) * tof

/-- `normal` has a value exactly if the positions are not collinear. -/
theorem normal_none {r0 r1 : V3 ℝ} (h : cross r0 r1 = 0) : normal r0 r1 = none := by
  unfold normal
  by_cases h0 : norm r0 = 0
  · simp [vdiv?, h0]
  by_cases h1 : norm r1 = 0
  · simp [vdiv?, h1]
  rw [vdiv?_ok h0, vdiv?_ok h1]
  simp only [Option.bind_eq_bind, Option.bind_some, vdiv_eq, cross_smul_smul, h]
  have z : (1 / norm r0 * (1 / norm r1)) • (0 : V3 ℝ) = 0 := by ext <;> simp
  have n0 : norm (0 : V3 ℝ) = 0 := by unfold V3.norm; simp [dot]
  rw [z, n0]
  simp [vdiv?]

theorem geom_collinear {r0 r1 : V3 ℝ} (h : cross r0 r1 = 0) (cw : Bool) :
    ∃ g, geom r0 r1 cw = .ok g ∧ g.s = semiPerimeter r0 r1 ∧ g.frame = none := by
  unfold geom
  rw [normal_none h]
  exact ⟨_, rfl, rfl, rfl⟩

theorem geom_s {r0 r1 : V3 ℝ} {cw : Bool} {g : Geom} (h : geom r0 r1 cw = .ok g) : g.s = semiPerimeter r0 r1 := by
  unfold geom at h
  simp only at h
  split_ifs at h
  simp only [Res.ok.injEq] at h
  rw [← h]; rfl

theorem geom_reject {r0 r1 : V3 ℝ} (h : cross r0 r1 ≠ 0) (hz : (cross r0 r1).z = 0) (cw : Bool) :
    geom r0 r1 cw = .err .domainError := by
  obtain ⟨k, hk, hn, -⟩ := normal_ok h
  unfold geom
  simp only [hn]
  have hz' : ((1 / k) • cross r0 r1).z = 0 := by
    show 1 / k * (cross r0 r1).z = 0
    rw [hz, mul_zero]
  rw [if_pos (by simp only [Option.any_some, hz', decide_true])]

theorem householder_le (lam T : ℝ) (N : ℕ) (eps : ℝ) (e n : ℕ) (x : ℝ) :
    (householder lam T N eps e n x).2 ≤ n := by
  induction n generalizing x with
  | zero => exact le_rfl
  | succ n ih =>
    unfold householder
    split
    · simp only; omega
    · split_ifs
      · have := ih ‹_›; simp only; omega
      · simp

theorem householderN_le (lam T : ℝ) (N : ℕ) (eps : ℝ) (e : ℕ) (x : Option ℝ) :
    (householderN lam T N eps e x).2 ≤ 15 := by
  unfold householderN
  split
  · exact householder_le ..
  · simp only; omega

theorem solutions_length (j : Junk) (lam T : ℝ) (N : ℕ) : (solutions j lam T N).length = 2 * N + 1 := by
  unfold solutions
  rw [List.length_cons, List.length_flatMap]
  have : (List.range N).map (fun i => (multi j lam T i).length) = List.replicate N 2 := by
    rw [List.eq_replicate_iff]
    constructor
    · simp
    · intro b hb
      simp only [List.mem_map] at hb
      obtain ⟨i, -, rfl⟩ := hb
      rfl
  rw [this, List.sum_replicate]
  simp; ring

theorem solutions_iters (j : Junk) (lam T : ℝ) (N : ℕ) : ∀ p ∈ solutions j lam T N, p.2 ≤ 15 := by
  intro p hp
  unfold solutions at hp
  rw [List.mem_cons] at hp
  rcases hp with rfl | hp
  · exact householderN_le ..
  · rw [List.mem_flatMap] at hp
    obtain ⟨i, -, hp⟩ := hp
    unfold multi at hp
    simp only [List.mem_cons, List.not_mem_nil, or_false] at hp
    rcases hp with rfl | rfl <;> exact householderN_le ..

theorem nmax_bounds {j : Junk} {lam T : ℝ} {m N : ℕ} (h : nmax j lam T m = .ok N) :
    N ≤ m ∧ N ≤ ⌊T / π⌋₊ ∧ T / π < 2 ^ 32 := by
  unfold nmax at h
  by_cases h1 : 2 ^ 32 ≤ T / π
  · rw [if_pos h1] at h; contradiction
  rw [if_neg h1] at h
  have hm : min m ⌊T / π⌋₊ ≤ ⌊T / π⌋₊ := min_le_right _ _
  by_cases h2 : 0 < min m ⌊T / π⌋₊
  · simp only [if_pos h2, Res.ok.injEq] at h
    rw [← h]
    refine ⟨min_le_left _ _, (min_le_right _ _).trans ?_, not_le.1 h1⟩
    split
    · exact hm
    · split_ifs
      · split
        · omega
        · exact hm
        · split_ifs <;> omega
      · split
        · exact hm
        · exact hm
        · split_ifs <;> omega
      · exact hm
  · simp only [if_neg h2, Res.ok.injEq] at h
    rw [← h]
    exact ⟨min_le_left _ _, min_le_right _ _, not_le.1 h1⟩

theorem nmax_ub (j : Junk) {lam T : ℝ} (m : ℕ) (h : 2 ^ 32 ≤ T / π) : nmax j lam T m = .ub := by
  unfold nmax
  rw [if_pos h]

theorem nmax_ok (j : Junk) {lam T : ℝ} (m : ℕ) (h : T / π < 2 ^ 32) : ∃ N, nmax j lam T m = .ok N := by
  unfold nmax
  rw [if_neg (not_le.2 h)]
  simp only
  split_ifs <;> exact ⟨_, rfl⟩

/-- What a run of the constructor amounts to. -/
theorem make_inv {j : Junk} {r0 r1 : V3 ℝ} {tof mu : ℝ} {cw : Bool} {m : ℕ} {L : Lambert}
    (h : make j r0 r1 tof mu cw m = .ok L) :
    0 < tof ∧ 0 < mu ∧ ∃ g, geom r0 r1 cw = .ok g ∧ g.s ≠ 0 ∧
      nmax j g.lam (nonDim r0 r1 tof mu) m = .ok L.Nmax ∧
      L = { r0 := r0, r1 := r1, tof := tof, mu := mu,
            v0 := ((solutions j g.lam (nonDim r0 r1 tof mu) L.Nmax).map fun p => p.1.bind (velocities g mu)).map
              (Option.map Prod.fst),
            v1 := ((solutions j g.lam (nonDim r0 r1 tof mu) L.Nmax).map fun p => p.1.bind (velocities g mu)).map
              (Option.map Prod.snd),
            iters := (solutions j g.lam (nonDim r0 r1 tof mu) L.Nmax).map Prod.snd,
            x := (solutions j g.lam (nonDim r0 r1 tof mu) L.Nmax).map Prod.fst,
            s := g.s, c := g.c, lam := g.lam, Nmax := L.Nmax, hasConverged := true, multiRevs := m } := by
  unfold make at h
  split_ifs at h with h1 h2
  refine ⟨not_le.1 h1, not_le.1 h2, ?_⟩
  obtain ⟨g, hg⟩ | ⟨e, he⟩ | hu : (∃ g, geom r0 r1 cw = .ok g) ∨ (∃ e, geom r0 r1 cw = .err e) ∨ geom r0 r1 cw = .ub := by
    cases geom r0 r1 cw <;> simp
  · rw [hg, Res.ok_bind] at h
    have hs := geom_s hg
    split_ifs at h with h3
    have hT : √(2 * mu / g.s / g.s / g.s) * tof = nonDim r0 r1 tof mu := by rw [hs]; rfl
    simp only [hT] at h
    refine ⟨g, hg, h3, ?_⟩
    obtain ⟨N, hN⟩ | ⟨e, he⟩ | hu : (∃ N, nmax j g.lam (nonDim r0 r1 tof mu) m = .ok N) ∨
        (∃ e, nmax j g.lam (nonDim r0 r1 tof mu) m = .err e) ∨ nmax j g.lam (nonDim r0 r1 tof mu) m = .ub := by
      cases nmax j g.lam (nonDim r0 r1 tof mu) m <;> simp
    · rw [hN, Res.ok_bind] at h
      simp only [Res.pure_eq, Res.ok.injEq] at h
      have hLN : L.Nmax = N := by rw [← h]
      rw [hLN]
      exact ⟨hN, h.symm⟩
    · rw [he] at h; contradiction
    · rw [hu] at h; contradiction
  · rw [he] at h; contradiction
  · rw [hu] at h; contradiction

/-- C30. The constructor fails exactly for a non-positive time of flight, a non-positive gravity parameter and a transfer
plane that contains the z axis, always with `domain_error`. -/
theorem C30_rejects (j : Junk) (r0 r1 : V3 ℝ) (tof mu : ℝ) (cw : Bool) (m : ℕ) (e : Exc) :
    make j r0 r1 tof mu cw m = .err e ↔
      e = .domainError ∧ (tof ≤ 0 ∨ mu ≤ 0 ∨ (cross r0 r1 ≠ 0 ∧ (cross r0 r1).z = 0)) := by
  unfold make
  by_cases h1 : tof ≤ 0
  · simp [h1, eq_comm]
  by_cases h2 : mu ≤ 0
  · simp [h1, h2, eq_comm]
  rw [if_neg h1, if_neg h2]
  by_cases h3 : cross r0 r1 ≠ 0 ∧ (cross r0 r1).z = 0
  · rw [geom_reject h3.1 h3.2]
    constructor
    · intro h
      exact ⟨(Res.err.inj h).symm, .inr (.inr h3)⟩
    · intro h
      rw [h.1]; rfl
  · have hg : ∃ g, geom r0 r1 cw = .ok g := by
      by_cases hc : cross r0 r1 = 0
      · obtain ⟨g, hg, -⟩ := geom_collinear hc cw
        exact ⟨g, hg⟩
      · obtain ⟨g, _, _, _, _, _, hg, -⟩ := geom_spec cw (fun hz => h3 ⟨hc, hz⟩)
        exact ⟨g, hg⟩
    obtain ⟨g, hg⟩ := hg
    rw [hg, Res.ok_bind]
    have hno : ∀ (x : Res Lambert), (∀ e, x ≠ .err e) → (x = .err e ↔
        e = .domainError ∧ (tof ≤ 0 ∨ mu ≤ 0 ∨ (cross r0 r1 ≠ 0 ∧ (cross r0 r1).z = 0))) := by
      intro x hx
      simp only [h1, h2, h3, or_self, and_false, iff_false]
      exact hx e
    apply hno
    intro e'
    split_ifs
    · simp
    · by_cases hT : √(2 * mu / g.s / g.s / g.s) * tof / π < 2 ^ 32
      · obtain ⟨N, hN⟩ := nmax_ok j (lam := g.lam) m hT
        simp only [hN, Res.ok_bind]
        simp
      · simp only [nmax_ub j (lam := g.lam) m (not_lt.1 hT)]
        exact nofun

/-- C30. Otherwise, up to 2^32 half-turns in the time of flight, it succeeds. -/
theorem C30_accepts (j : Junk) {r0 r1 : V3 ℝ} {tof mu : ℝ} (cw : Bool) (m : ℕ) (h1 : 0 < tof) (h2 : 0 < mu)
    (h3 : (cross r0 r1).z ≠ 0) (h4 : nonDim r0 r1 tof mu < 2 ^ 32 * π) : ∃ L, make j r0 r1 tof mu cw m = .ok L := by
  obtain ⟨g, f, ct, st, rho, sg, hg, S⟩ := geom_spec cw h3
  unfold make
  rw [if_neg (not_le.2 h1), if_neg (not_le.2 h2), hg, Res.ok_bind, if_neg S.s_pos.ne']
  have hT : √(2 * mu / g.s / g.s / g.s) * tof = nonDim r0 r1 tof mu := by rw [geom_s hg]; rfl
  obtain ⟨N, hN⟩ := nmax_ok j (lam := g.lam) (T := √(2 * mu / g.s / g.s / g.s) * tof) m
    (by rw [hT, div_lt_iff₀ pi_pos]; exact h4)
  simp only [hN, Res.ok_bind]
  exact ⟨_, rfl⟩

/-- C30. The shape of the result. -/
theorem C30_shape {j : Junk} {r0 r1 : V3 ℝ} {tof mu : ℝ} {cw : Bool} {m : ℕ} {L : Lambert}
    (h : make j r0 r1 tof mu cw m = .ok L) :
    L.v0.length = 2 * L.Nmax + 1 ∧ L.v1.length = 2 * L.Nmax + 1 ∧ L.x.length = 2 * L.Nmax + 1 ∧
      L.iters.length = 2 * L.Nmax + 1 ∧ L.Nmax ≤ m ∧ L.Nmax * π ≤ nonDim r0 r1 tof mu ∧
      (∀ n ∈ L.iters, n ≤ 15) ∧ L.r0 = r0 ∧ L.r1 = r1 ∧ L.tof = tof ∧ L.mu = mu ∧ L.multiRevs = m := by
  obtain ⟨htof, hmu, g, hg, hs, hN, hL⟩ := make_inv h
  obtain ⟨b1, b2, b3⟩ := nmax_bounds hN
  have hT : 0 ≤ nonDim r0 r1 tof mu := mul_nonneg (sqrt_nonneg _) htof.le
  rw [hL]
  refine ⟨?_, ?_, ?_, ?_, b1, ?_, ?_, rfl, rfl, rfl, rfl, rfl⟩
  · simp [solutions_length]
  · simp [solutions_length]
  · simp [solutions_length]
  · simp [solutions_length]
  · show (L.Nmax : ℝ) * π ≤ _
    rw [← le_div_iff₀ pi_pos]
    exact (Nat.le_floor_iff (by have := pi_pos; positivity)).1 b2
  · intro n hn
    simp only [List.mem_map] at hn
    obtain ⟨p, hp, rfl⟩ := hn
    exact solutions_iters _ _ _ _ p hp

/-- C30, negation. Collinear positions are not rejected, and then no velocity is a number. -/
theorem C30_collinear (j : Junk) {r0 r1 : V3 ℝ} {tof mu : ℝ} (cw : Bool) (m : ℕ) (h1 : 0 < tof) (h2 : 0 < mu)
    (h3 : cross r0 r1 = 0) (h0 : r0 ≠ 0) (h4 : nonDim r0 r1 tof mu < 2 ^ 32 * π) :
    ∃ L, make j r0 r1 tof mu cw m = .ok L ∧ (∀ v ∈ L.v0, v = none) ∧ ∀ v ∈ L.v1, v = none := by
  obtain ⟨g, hg, hs, hf⟩ := geom_collinear h3 cw
  have hsp : 0 < g.s := by
    rw [hs]
    have a := norm_pos h0
    have b := V3.norm_nonneg r1
    have c := V3.norm_nonneg (r1 - r0)
    unfold semiPerimeter; positivity
  have hT : √(2 * mu / g.s / g.s / g.s) * tof = nonDim r0 r1 tof mu := by rw [hs]; rfl
  obtain ⟨N, hN⟩ := nmax_ok j (lam := g.lam) (T := √(2 * mu / g.s / g.s / g.s) * tof) m
    (by rw [hT, div_lt_iff₀ pi_pos]; exact h4)
  have hv : ∀ x, velocities g mu x = none := by
    intro x
    unfold velocities
    simp only [hf, Option.bind_eq_bind, Option.bind_none, Option.bind_fun_none]
  have hall : ∀ p : Option ℝ × ℕ, p.1.bind (velocities g mu) = none := by
    intro p
    rw [show velocities g mu = fun _ => none from funext hv]
    simp
  refine ⟨_, by
    unfold make
    rw [if_neg (not_le.2 h1), if_neg (not_le.2 h2), hg, Res.ok_bind, if_neg hsp.ne']
    simp only [hN, Res.ok_bind]
    rfl, ?_, ?_⟩
  · intro v hv
    simp only [List.mem_map] at hv
    obtain ⟨q, ⟨p, -, rfl⟩, rfl⟩ := hv
    rw [hall]; rfl
  · intro v hv
    simp only [List.mem_map] at hv
    obtain ⟨q, ⟨p, -, rfl⟩, rfl⟩ := hv
    rw [hall]; rfl

/-- C30, negation. A time of flight of 2^32 half-turns or more is undefined behaviour (conversion of a number that is out of
range), even if no revolutions are asked for. -/
theorem C30_overflow (j : Junk) {r0 r1 : V3 ℝ} {tof mu : ℝ} (cw : Bool) (m : ℕ) (h1 : 0 < tof) (h2 : 0 < mu)
    (h3 : (cross r0 r1).z ≠ 0) (h4 : 2 ^ 32 * π ≤ nonDim r0 r1 tof mu) : make j r0 r1 tof mu cw m = .ub := by
  obtain ⟨g, f, ct, st, rho, sg, hg, S⟩ := geom_spec cw h3
  unfold make
  rw [if_neg (not_le.2 h1), if_neg (not_le.2 h2), hg, Res.ok_bind, if_neg S.s_pos.ne']
  have hT : √(2 * mu / g.s / g.s / g.s) * tof = nonDim r0 r1 tof mu := by rw [geom_s hg]; rfl
  have h5 : 2 ^ 32 ≤ nonDim r0 r1 tof mu / π := by rw [le_div_iff₀ pi_pos]; exact h4
  simp only [hT, nmax_ub j (lam := g.lam) m h5]
  rfl

/-- A transfer over a right angle for the examples. -/
def exR0 : V3 ℝ := ⟨1, 0, 0⟩
def exR1 : V3 ℝ := ⟨0, 1, 0⟩
theorem ex_z : (cross exR0 exR1).z ≠ 0 := by norm_num [exR0, exR1]

theorem ex_norm : norm exR0 = 1 ∧ norm exR1 = 1 := by
  constructor <;> exact norm_one (by norm_num [exR0, exR1, dot])

theorem ex_nonDim : nonDim exR0 exR1 1 1 ≤ 2 := by
  unfold nonDim
  have hs : 1 ≤ semiPerimeter exR0 exR1 := by
    unfold semiPerimeter
    rw [ex_norm.1, ex_norm.2]
    have := V3.norm_nonneg (exR1 - exR0)
    linarith
  generalize semiPerimeter exR0 exR1 = s at *
  rw [mul_one, sqrt_le_left (by norm_num), div_div, div_div, div_le_iff₀ (by positivity)]
  nlinarith [one_le_mul_of_one_le_of_one_le hs (one_le_mul_of_one_le_of_one_le hs hs)]

theorem ex_lt : nonDim exR0 exR1 1 1 < 2 ^ 32 * π := by
  have := ex_nonDim
  have := pi_gt_three
  linarith

/-- The hypotheses of `C30_accepts` and `C30_shape` can be met. -/
theorem C30_example (j : Junk) : ∃ L, make j exR0 exR1 1 1 false 3 = .ok L ∧ L.v0.length = 2 * L.Nmax + 1 := by
  obtain ⟨L, hL⟩ := C30_accepts j false 3 one_pos one_pos ex_z ex_lt
  exact ⟨L, hL, (C30_shape hL).1⟩

theorem getElem_map_bind {α β γ : Type} (l : List (Option α × ℕ)) (f : α → Option β) (p : β → γ) (k : ℕ) {x : α}
    (hx : (l.map Prod.fst)[k]? = some (some x)) {b : β} (hb : f x = some b) :
    ((l.map fun q => q.1.bind f).map (Option.map p))[k]? = some (some (p b)) := by
  rw [List.getElem?_map] at hx
  rw [List.getElem?_map, List.getElem?_map]
  cases hq : l[k]? with
  | none => rw [hq] at hx; simp at hx
  | some q =>
    rw [hq] at hx
    simp only [Option.map_some, Option.some.injEq] at hx ⊢
    rw [hx]
    simp [hb]

/-- The solution with index `k`: its velocities are those that belong to its value of the iteration variable. -/
theorem make_solution {j : Junk} {r0 r1 : V3 ℝ} {tof mu : ℝ} {cw : Bool} {m : ℕ} {L : Lambert}
    (h : make j r0 r1 tof mu cw m = .ok L) (hz : (cross r0 r1).z ≠ 0) {k : ℕ} {x : ℝ} (hx : L.x[k]? = some (some x)) :
    ∃ g f ct st rho sg v0 v1, geom r0 r1 cw = .ok g ∧ Spec r0 r1 cw g f ct st rho sg ∧ velocities g mu x = some (v0, v1) ∧
      L.v0[k]? = some (some v0) ∧ L.v1[k]? = some (some v1) ∧ L.lam = g.lam ∧ 0 < mu := by
  obtain ⟨htof, hmu, g, hg, hs, hN, hL⟩ := make_inv h
  obtain ⟨g', f, ct, st, rho, sg, hg', S⟩ := geom_spec cw hz
  obtain rfl : g = g' := by rw [hg] at hg'; exact Res.ok.inj hg'
  obtain ⟨v0, v1, hv, -⟩ := orbit S hmu x
  rw [hL] at hx
  refine ⟨g, f, ct, st, rho, sg, v0, v1, hg, S, hv, ?_, ?_, ?_, hmu⟩
  · rw [hL]; exact getElem_map_bind _ _ _ k hx hv
  · rw [hL]; exact getElem_map_bind _ _ _ k hx hv
  · rw [hL]

/-- C31. Both states of a solution have the same energy, angular momentum and eccentricity vector, and the motion has the
requested sense. -/
theorem C31_orbit {j : Junk} {r0 r1 : V3 ℝ} {tof mu : ℝ} {cw : Bool} {m : ℕ} {L : Lambert}
    (h : make j r0 r1 tof mu cw m = .ok L) (hz : (cross r0 r1).z ≠ 0) {k : ℕ} {x : ℝ} (hx : L.x[k]? = some (some x)) :
    ∃ v0 v1, L.v0[k]? = some (some v0) ∧ L.v1[k]? = some (some v1) ∧
      energy ⟨r0, v0⟩ mu = energy ⟨r1, v1⟩ mu ∧ angMom ⟨r0, v0⟩ = angMom ⟨r1, v1⟩ ∧
      eccVec ⟨r0, v0⟩ mu = eccVec ⟨r1, v1⟩ mu ∧
      (if cw then (angMom ⟨r0, v0⟩).z < 0 else 0 < (angMom ⟨r0, v0⟩).z) ∧
      cross (cross r0 r1) (angMom ⟨r0, v0⟩) = 0 := by
  obtain ⟨g, f, ct, st, rho, sg, v0, v1, hg, S, hv, e0, e1, -, hmu⟩ := make_solution h hz hx
  obtain ⟨v0', v1', hv', hE0, hE1, ⟨k', hk', hA0, hA1⟩, hec⟩ := orbit S hmu x
  obtain ⟨rfl, rfl⟩ : v0 = v0' ∧ v1 = v1' := by rw [hv] at hv'; simpa using hv'
  refine ⟨v0, v1, e0, e1, by rw [hE0, hE1], by rw [hA0, hA1], hec, ?_, ?_⟩
  · rw [hA0]
    have := S.sense
    cases cw
    · simp only [Bool.false_eq_true, if_false] at this ⊢
      exact mul_pos hk' this
    · simp only [if_true] at this ⊢
      exact mul_neg_of_pos_of_neg hk' this
  · rw [hA0, S.r0_eq, S.r1_eq, S.irf_eq]
    ext <;> simp <;> ring

/-- C31. The semi-major axis belongs to the iteration variable. -/
theorem C31_energy {j : Junk} {r0 r1 : V3 ℝ} {tof mu : ℝ} {cw : Bool} {m : ℕ} {L : Lambert}
    (h : make j r0 r1 tof mu cw m = .ok L) (hz : (cross r0 r1).z ≠ 0) {k : ℕ} {x : ℝ} (hx : L.x[k]? = some (some x)) :
    ∃ v0, L.v0[k]? = some (some v0) ∧ energy ⟨r0, v0⟩ mu = -(mu * (1 - x ^ 2) / semiPerimeter r0 r1) := by
  obtain ⟨g, f, ct, st, rho, sg, v0, v1, hg, S, hv, e0, e1, -, hmu⟩ := make_solution h hz hx
  obtain ⟨v0', v1', hv', hE0, -⟩ := orbit S hmu x
  obtain ⟨rfl, rfl⟩ : v0 = v0' ∧ v1 = v1' := by rw [hv] at hv'; simpa using hv'
  exact ⟨v0, e0, by rw [hE0, geom_s hg]⟩

end Lambert
end Kep3
