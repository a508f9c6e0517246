import Verif.Mga.Props54
import Verif.Elements.Model

/-!
# The objectives of the MGA problem (C66)
-/

namespace Kep3.Mga
open Real V3

theorem fbDv_nonneg (vin vout : V3 ℝ) (mu safe : ℝ) : 0 ≤ fbDv vin vout mu safe := by
  unfold fbDv
  dsimp only
  split
  · split_ifs
    · exact sqrt_nonneg _
    · exact abs_nonneg _
  · exact abs_nonneg _

/-- The objectives, given the departure and the times of flight. -/
noncomputable def objective (j : ℕ → Lambert.Junk) (p : Mga) (t0 : ℝ) (T : List ℝ) : OptionT Res (List ℝ) := do
  let d ← fly j p t0 T
  return if p.multiObjective then [d.launch + d.flyby.sum + d.arrival, T.sum] else [d.launch + d.flyby.sum + d.arrival]

theorem fitness_alpha (j : ℕ → Lambert.Junk) (p : Mga) {t0 T : ℝ} {al : List ℝ} (h : ∀ a ∈ al, 0 < a ∧ a < 1) (hl : al ≠ [])
    (hT : 0 < T) : ∃ ts, alpha2direct (t0 :: T :: al) = .ok (some (t0 :: ts)) ∧
      fitness j { p with enc := .alpha } (t0 :: T :: al) = objective j p t0 ts := by
  obtain ⟨ts, h1, h2, h3, h4⟩ := C52_alpha_times (t0 := t0) h hl hT
  refine ⟨ts, h1, ?_⟩
  have hdec : decodeTofs .alpha p.tof p.nLegs (t0 :: T :: al) = .ok (some ts) := by
    have := (C52_decode p.tof t0 (T :: al)).1 ts h1
    exact this
  unfold fitness computeDvs objective
  simp only [show ({ p with enc := .alpha } : Mga).nLegs = p.nLegs from rfl, hdec, bind_assoc]
  rw [show (OptionT.mk (Res.ok (some ts)) : OptionT Res (List ℝ)) = num (some ts) from rfl, run_num_bind,
    run_lift_bind (show idx (t0 :: T :: al) 0 = .ok t0 from rfl)]
  rw [show fly j { p with enc := .alpha } t0 ts = fly j p t0 ts from rfl]
  congr 1
  funext d
  rw [run_lift_bind (show idx (t0 :: T :: al) 1 = .ok T from rfl), h4]

theorem fitness_eta (j : ℕ → Lambert.Junk) (p : Mga) {t0 : ℝ} {es : List ℝ} (hl : es ≠ []) (hn : es.length = p.nLegs) :
    ∃ ts, eta2direct .eta p.tof (t0 :: es) = .ok (t0 :: ts) ∧
      fitness j { p with enc := .eta } (t0 :: es) = objective j p t0 ts := by
  have h1 := eta2direct_eq (tof := p.tof) (t0 := t0) hl
  refine ⟨_, h1, ?_⟩
  have hdec := (C52_decode p.tof t0 es).2.1 _ h1
  rw [hn] at hdec
  unfold fitness computeDvs objective
  simp only [show ({ p with enc := .eta } : Mga).nLegs = p.nLegs from rfl, hdec, bind_assoc, h1]
  rw [show (OptionT.mk (Res.ok (some (etaTimes p.tof es))) : OptionT Res (List ℝ)) = num (some (etaTimes p.tof es)) from rfl,
    run_num_bind, run_lift_bind (show idx (t0 :: es) 0 = .ok t0 from rfl)]
  rfl

theorem fitness_direct (j : ℕ → Lambert.Junk) (p : Mga) (t0 : ℝ) (ts : List ℝ) :
    fitness j { p with enc := .direct } (t0 :: ts) = objective j p t0 ts := by
  unfold fitness computeDvs objective decodeTofs
  simp only [bind_assoc]
  rfl

/-- **C66**: the objectives do not depend on the encoding: a chromosome in the alpha or in the eta encoding and its conversion
to times have the same. -/
theorem C66_encoding (j : ℕ → Lambert.Junk) (p : Mga) (t0 : ℝ) :
    (∀ T al, (∀ a ∈ al, 0 < a ∧ a < 1) → al ≠ [] → 0 < T → ∃ d, alpha2direct (t0 :: T :: al) = .ok (some d) ∧
      fitness j { p with enc := .alpha } (t0 :: T :: al) = fitness j { p with enc := .direct } d) ∧
    (∀ es, es ≠ [] → es.length = p.nLegs → ∃ d, eta2direct .eta p.tof (t0 :: es) = .ok d ∧
      fitness j { p with enc := .eta } (t0 :: es) = fitness j { p with enc := .direct } d) := by
  refine ⟨fun T al h hl hT => ?_, fun es hl hn => ?_⟩
  · obtain ⟨ts, h1, h2⟩ := fitness_alpha j p (t0 := t0) h hl hT
    exact ⟨_, h1, by rw [h2, fitness_direct]⟩
  · obtain ⟨ts, h1, h2⟩ := fitness_eta j p (t0 := t0) hl hn
    exact ⟨_, h1, by rw [h2, fitness_direct]⟩

/-- The parts of the first objective. -/
structure Cost (p : Mga) (legs : List Lambert) (ep : List ℝ) (launch : ℝ) (flyby : List ℝ) (arrival : ℝ) : Prop where
  /-- What the launcher does not give. -/
  launch_eq : ∃ u t x y L v, p.seq[0]? = some u ∧ ep[0]? = some t ∧ Planet.eph u t = .ok x ∧ nums x = some y ∧
    legs[0]? = some L ∧ L.v0[0]? = some (some v) ∧ launch = max 0 (norm (y.v - v) - p.vinf)
  count : flyby.length = p.nLegs - 1
  /-- At each intermediate planet, the fly-by impulse between the relative velocities. -/
  flyby_eq : ∀ i, i < p.nLegs - 1 → ∃ u t x y L M v w mu safe d, p.seq[i + 1]? = some u ∧ ep[i + 1]? = some t ∧
    Planet.eph u t = .ok x ∧ nums x = some y ∧ legs[i]? = some L ∧ legs[i + 1]? = some M ∧ L.v1[0]? = some (some v) ∧
    M.v0[0]? = some (some w) ∧ Planet.getMuSelf u = .ok mu ∧ Planet.getSafeRadius u = .ok safe ∧ flyby[i]? = some d ∧
    d = fbDv (v - y.v) (w - y.v) mu safe
  arrival_eq : ∃ u t x y L v, p.seq[p.nLegs]? = some u ∧ ep[p.nLegs]? = some t ∧ Planet.eph u t = .ok x ∧ nums x = some y ∧
    legs[p.nLegs - 1]? = some L ∧ L.v1[0]? = some (some v) ∧
    (p.orbitInsertion = false → arrival = norm (y.v - v)) ∧
    (p.orbitInsertion = true → ∃ mu, Planet.getMuSelf u = .ok mu ∧
      insertion mu p.rpTarget p.eTarget (norm (y.v - v)) = some arrival)
  launch_nonneg : 0 ≤ launch
  flyby_nonneg : ∀ d ∈ flyby, 0 ≤ d
  arrival_nonneg : 0 ≤ arrival

theorem insertion_nonneg {mu rp e dv y : ℝ} (h : insertion mu rp e dv = some y) : 0 ≤ y := by
  unfold insertion at h
  simp only [Option.bind_eq_bind, Option.bind_eq_some_iff, Option.pure_def, Option.some.injEq] at h
  obtain ⟨_, -, _, -, _, -, _, -, rfl⟩ := h
  exact abs_nonneg _

theorem fly_cost {j : ℕ → Lambert.Junk} {p : Mga} {t0 : ℝ} {T : List ℝ} {d : Dvs} (h : (fly j p t0 T).run = .ok (some d))
    (hT : T.length = p.nLegs) : Cost p d.legs d.ep d.launch d.flyby d.arrival := by
  obtain ⟨G, -, -, hep⟩ := fly_legs h hT
  unfold fly at h
  simp only [run_bind_some, run_lift_some, run_pure_some, idx_ok, first, run_num_some] at h
  obtain ⟨rv, h1, lps, h2, fb, h3, s, h4, l0, h5, vs, ⟨_, h6, rfl⟩, f, h7, lf, h8, vf, ⟨_, h9, rfl⟩, h10⟩ := h
  have hn := G.nonempty
  have hseq : p.seq.length = p.nLegs + 1 := by unfold Mga.nLegs at hn ⊢; omega
  obtain ⟨a1, a2⟩ := mapM_range h1
  obtain ⟨c1, c2⟩ := mapM_range h3
  simp only [run_bind_some, run_lift_some, run_num_some, idx_ok, first] at a2 c2
  obtain ⟨k1, k2, k3, k4⟩ : d.legs = lps ∧ d.flyby = fb ∧ d.launch = max 0 (norm (s.v - vs) - p.vinf) ∧
      ((p.orbitInsertion = false → d.arrival = norm (f.v - vf)) ∧
        (p.orbitInsertion = true → ∃ u mu, p.seq[p.seq.length - 1]? = some u ∧ Planet.getMuSelf u = .ok mu ∧
          insertion mu p.rpTarget p.eTarget (norm (f.v - vf)) = some d.arrival)) := by
    split_ifs at h10 with ho <;> simp only [run_bind_some, run_lift_some, run_num_some, run_pure_some, idx_ok] at h10
    · obtain ⟨u, hu, mu, hmu, arr, ha, rfl⟩ := h10
      exact ⟨rfl, rfl, rfl, by simp [ho], fun _ => ⟨u, mu, hu, hmu, ha⟩⟩
    · obtain ⟨arr, ha, rfl⟩ := h10
      exact ⟨rfl, rfl, rfl, fun _ => ha.symm, by simp [ho]⟩
  have hl : lps.length = p.nLegs := by rw [← k1]; exact G.legs_len
  rw [k1, k2, k3, hep]
  have e1 := a2 0 (by omega)
  obtain ⟨a, ha, u, hu, t, ht, x, hx, hnx⟩ := e1
  rw [h4] at ha
  obtain rfl := Option.some.inj ha
  obtain ⟨b, hb, u', hu', t', ht', x', hx', hnx'⟩ := a2 p.nLegs (by omega)
  rw [show rv.length - 1 = p.nLegs by omega] at h7
  rw [h7] at hb
  obtain rfl := Option.some.inj hb
  rw [hl] at h8 c1 c2
  refine ⟨⟨u, t, x, s, l0, vs, hu, ht, hx, hnx, h5, h6, rfl⟩, by rw [c1], fun i hi => ?_, ?_, le_max_left _ _, fun y hy => ?_, ?_⟩
  · obtain ⟨dv, hd, L, hL, M, hM, y, hy, w, hw, vi, ⟨_, hvi, rfl⟩, vo, ⟨_, hvo, rfl⟩, hf⟩ := c2 i hi
    obtain ⟨y', hy', w', hw', t, ht, x, hx, hnx⟩ := a2 (i + 1) (by omega)
    rw [hy] at hy'
    obtain rfl := Option.some.inj hy'
    rw [hw] at hw'
    obtain rfl := Option.some.inj hw'
    unfold fbDvPl at hf
    cases hm : Planet.getMuSelf w with
    | ok mu =>
      cases hs : Planet.getSafeRadius w with
      | ok safe =>
        rw [hm, hs] at hf
        simp only [Res.ok_bind, Res.pure_eq, Res.ok.injEq] at hf
        exact ⟨w, t, x, y, L, M, vi, vo, mu, safe, dv, hw, ht, hx, hnx, hL, hM, hvi, hvo, hm, hs, hd, hf.symm⟩
      | err e => rw [hm, hs] at hf; simp at hf
      | ub => rw [hm, hs] at hf; simp at hf
    | err e => rw [hm] at hf; simp at hf
    | ub => rw [hm] at hf; simp at hf
  · refine ⟨u', t', x', f, lf, vf, hu', ht', hx', hnx', h8, h9, k4.1, fun ho => ?_⟩
    obtain ⟨w, mu, hw, hm, hi⟩ := k4.2 ho
    rw [show p.seq.length - 1 = p.nLegs by omega, hu'] at hw
    obtain rfl := Option.some.inj hw
    exact ⟨mu, hm, hi⟩
  · obtain ⟨i, hi, rfl⟩ := List.getElem_of_mem hy
    obtain ⟨dv, hd, L, hL, M, hM, y, hy, w, hw, vi, -, vo, -, hf⟩ := c2 i (by omega)
    rw [List.getElem?_eq_getElem hi] at hd
    obtain rfl := Option.some.inj hd
    unfold fbDvPl at hf
    cases hm : Planet.getMuSelf w with
    | ok mu =>
      cases hs : Planet.getSafeRadius w with
      | ok safe =>
        rw [hm, hs] at hf
        simp only [Res.ok_bind, Res.pure_eq, Res.ok.injEq] at hf
        rw [← hf]
        exact fbDv_nonneg _ _ _ _
      | err e => rw [hm, hs] at hf; simp at hf
      | ub => rw [hm, hs] at hf; simp at hf
    | err e => rw [hm] at hf; simp at hf
    | ub => rw [hm] at hf; simp at hf
  · cases ho : p.orbitInsertion with
    | false => rw [k4.1 ho]; exact V3.norm_nonneg _
    | true =>
      obtain ⟨w, mu, hw, hm, hi⟩ := k4.2 ho
      exact insertion_nonneg hi

theorem objective_cost {j : ℕ → Lambert.Junk} {p : Mga} {t0 : ℝ} {T f : List ℝ} (h : (objective j p t0 T).run = .ok (some f))
    (hT : T.length = p.nLegs) : ∃ legs ep launch flyby arrival tf, Legs j p legs ep ∧ ep[0]? = some t0 ∧
      ep[p.nLegs]? = some tf ∧ Cost p legs ep launch flyby arrival ∧
      f = if p.multiObjective then [launch + flyby.sum + arrival, tf - t0] else [launch + flyby.sum + arrival] := by
  unfold objective at h
  simp only [run_bind_some, run_pure_some] at h
  obtain ⟨d, hd, rfl⟩ := h
  obtain ⟨G, e0, -, hep⟩ := fly_legs hd hT
  have hc := fly_cost hd hT
  refine ⟨_, _, _, _, _, t0 + T.sum, G, e0, ?_, hc, by simp⟩
  rw [hep, cumsum_get _ _ _ (by simp [hT])]
  simp [← hT]

/-- **C66**: in every encoding, the first objective is the sum of the launch, fly-by and arrival impulses of a trajectory through
the planets, none of them negative; the second, if asked for, is the time between its first and last epochs. -/
theorem C66_objectives {j : ℕ → Lambert.Junk} {p : Mga} {t0 : ℝ} {g f : List ℝ}
    (h : (fitness j p (t0 :: g)).run = .ok (some f)) (hlen : (t0 :: g).length = p.dim) (hn : 0 < p.nLegs)
    (hg : p.enc = .alpha → ∃ T al, g = T :: al ∧ 0 < T ∧ ∀ a ∈ al, 0 < a ∧ a < 1) :
    ∃ legs ep launch flyby arrival tf, Legs j p legs ep ∧ ep[0]? = some t0 ∧ ep[p.nLegs]? = some tf ∧
      Cost p legs ep launch flyby arrival ∧
      f = if p.multiObjective then [launch + flyby.sum + arrival, tf - t0] else [launch + flyby.sum + arrival] := by
  unfold Mga.dim at hlen
  rcases he : p.enc with _ | _ | _
  · obtain ⟨T, al, rfl, hT, ha⟩ := hg he
    rw [he] at hlen
    simp only [List.length_cons] at hlen
    have hal : al ≠ [] := by rintro rfl; simp at hlen; omega
    obtain ⟨ts, h1, h2⟩ := fitness_alpha j p (t0 := t0) ha hal hT
    obtain ⟨ts', h1', h3, -, -⟩ := C52_alpha_times (t0 := t0) ha hal hT
    rw [h1] at h1'
    simp only [Res.ok.injEq, Option.some.injEq, List.cons.injEq, true_and] at h1'
    subst h1'
    rw [show ({ p with enc := .alpha } : Mga) = p by rw [← he]] at h2
    rw [h2] at h
    exact objective_cost h (by omega)
  · rw [he] at hlen
    simp only [List.length_cons] at hlen
    have h2 := fitness_direct j p t0 g
    rw [show ({ p with enc := .direct } : Mga) = p by rw [← he]] at h2
    rw [h2] at h
    exact objective_cost h (by omega)
  · rw [he] at hlen
    simp only [List.length_cons] at hlen
    have hgl : g ≠ [] := by rintro rfl; simp at hlen; omega
    obtain ⟨ts, h1, h2⟩ := fitness_eta j p (t0 := t0) hgl (by omega)
    rw [show ({ p with enc := .eta } : Mga) = p by rw [← he]] at h2
    rw [eta2direct_eq hgl] at h1
    simp only [Res.ok.injEq, List.cons.injEq, true_and] at h1
    rw [h2] at h
    exact objective_cost h (by rw [← h1, etaTimes_length]; omega)

/-- The hypotheses of `C66_objectives` are met. -/
theorem C66_example (j : ℕ → Lambert.Junk) : ∃ T f, (fitness j exMga [7, T]).run = .ok (some f) ∧
    [7, T].length = exMga.dim ∧ 0 < exMga.nLegs := by
  obtain ⟨T, L, v, w, h1, -, h2⟩ := exMga_flies j
  obtain ⟨f, hf⟩ : ∃ f, (fitness j exMga [7, T]).run = .ok (some f) := by
    unfold fitness
    simp only [run_bind_some]
    exact ⟨_, _, h1, rfl⟩
  exact ⟨T, f, hf, rfl, by simp [exMga, Mga.nLegs]⟩

/-- **C66**: the insertion impulse takes the speed at the pericentre `rp` of the arrival hyperbola (whose speed at infinity is
the arrival speed) to that of the orbit with the same pericentre and the target eccentricity, whichever is the larger. -/
theorem C66_insertion {mu rp e dv : ℝ} (hmu : 0 < mu) (hrp : 0 < rp) (he : 0 ≤ e) :
    ∃ a b, insertion mu rp e dv = some |a - b| ∧ 0 < a ∧ 0 < b ∧
      energy ⟨⟨rp, 0, 0⟩, ⟨0, a, 0⟩⟩ mu = dv ^ 2 / 2 ∧
      norm (eccVec ⟨⟨rp, 0, 0⟩, ⟨0, b, 0⟩⟩ mu) = e ∧ eccVec ⟨⟨rp, 0, 0⟩, ⟨0, b, 0⟩⟩ mu = ⟨e, 0, 0⟩ := by
  have hq : 0 < 2 * mu / rp := by positivity
  have ha : 0 < dv * dv + 2 * mu / rp := by have := mul_self_nonneg dv; linarith
  have hb : 0 < 2 * mu / rp - mu / rp * (1 - e) := by
    have : 2 * mu / rp - mu / rp * (1 - e) = mu / rp * (1 + e) := by ring
    rw [this]; positivity
  have hn : norm (⟨rp, 0, 0⟩ : V3 ℝ) = rp := by
    rw [V3.norm, dot]; simp [sqrt_mul_self hrp.le]
  have hvec : eccVec ⟨⟨rp, 0, 0⟩, ⟨0, √(2 * mu / rp - mu / rp * (1 - e)), 0⟩⟩ mu = ⟨e, 0, 0⟩ := by
    have h2 := sq_sqrt hb.le
    generalize √(2 * mu / rp - mu / rp * (1 - e)) = b at h2
    unfold eccVec
    have h3 : b * b = mu * (1 + e) / rp := by rw [← sq, h2]; field_simp; ring
    rw [hn]
    ext
    · simp only [V3.sub_x, V3.smul_x, cross, V3.smul_y]
      field_simp
      have h4 : b ^ 2 * rp = mu * (1 + e) := by rw [sq, h3]; field_simp
      nlinarith
    · simp [cross]
    · simp [cross]
  refine ⟨√(dv * dv + 2 * mu / rp), √(2 * mu / rp - mu / rp * (1 - e)), ?_, sqrt_pos.2 ha, sqrt_pos.2 hb, ?_, ?_, hvec⟩
  · unfold insertion
    rw [div?_ok hrp.ne', div?_ok hrp.ne']
    simp only [Option.bind_eq_bind, Option.bind_some]
    rw [sqrt?_ok ha.le, sqrt?_ok hb.le]
    rfl
  · unfold energy
    rw [hn]
    have := sq_sqrt ha.le
    simp only [dot]
    rw [show (0 : ℝ) * 0 + √(dv * dv + 2 * mu / rp) * √(dv * dv + 2 * mu / rp) + 0 * 0 = √(dv * dv + 2 * mu / rp) ^ 2 by ring, this]
    ring
  · rw [hvec, V3.norm, dot]; simp [sqrt_mul_self he]

end Kep3.Mga
