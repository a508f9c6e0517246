import Verif.Mga.GymPolar

/-!
# The Cassini problems raise within their bounds (C77)
-/

namespace Kep3.Mga
open Real V3

theorem ofName_earth {p : JplLp} (hp : JplLp.ofName "earth".toList = .ok p) :
    p.elements0 = JplLp.earthMoon.1 ∧ p.elementsDot = JplLp.earthMoon.2 := by
  unfold JplLp.ofName at hp
  have hl : ("earth".toList.map Char.toLower) = "earth".toList := by decide
  simp only [hl, JplLp.lookup_some.2 (show ("earth".toList, 3) ∈ JplLp.mappedPlanets by simp [JplLp.mappedPlanets])] at hp
  obtain rfl := Res.ok.inj hp
  exact ⟨rfl, rfl⟩

theorem ofName_venus {p : JplLp} (hp : JplLp.ofName "venus".toList = .ok p) :
    p.elements0 = JplLp.venus.1 ∧ p.elementsDot = JplLp.venus.2 := by
  unfold JplLp.ofName at hp
  have hl : ("venus".toList.map Char.toLower) = "venus".toList := by decide
  simp only [hl, JplLp.lookup_some.2 (show ("venus".toList, 2) ∈ JplLp.mappedPlanets by simp [JplLp.mappedPlanets])] at hp
  obtain rfl := Res.ok.inj hp
  exact ⟨rfl, rfl⟩

/-- A trajectory of the Cassini problems with a polar first leg. -/
theorem cassini_polar {sv : Solver} (hsv : sv.Sound) (hq : sv.Quick) (info : Res String) {us : List JplLp}
    (hus : cassiniNames.map (fun n => JplLp.ofName n.toList) = us.map Res.ok) :
    ∃ t0 t1 t2 t3 t4 t5 : ℝ, (-310 ≤ t0 ∧ t0 ≤ -290) ∧ (149 ≤ t1 ∧ t1 ≤ 223) ∧ (100 ≤ t2 ∧ t2 ≤ 101) ∧ (100 ≤ t3 ∧ t3 ≤ 101) ∧
      (1900 ≤ t4 ∧ t4 ≤ 1901) ∧ (1900 ≤ t5 ∧ t5 ≤ 1901) ∧
      ∃ rv, Encounters (us.map (JplLp.udpla sv info)) (cumsum 0 [t0, t1, t2, t3, t4, t5]) rv ∧ PolarLeg rv := by
  match us, hus with
  | [p0, p1, p2, p3, p4, p5], hus =>
    simp only [cassiniNames, List.map_cons, List.map_nil, List.cons.injEq, and_true] at hus
    obtain ⟨h0, h1, h2, h3, h4, h5⟩ := hus
    obtain ⟨T, S, D, E, T1, T2, S1, S2, ⟨hD, hD1⟩, ⟨hE, hE1⟩, hne, hz⟩ := polar_first_leg
    norm_num at T1 T2 S1 S2
    obtain ⟨x0, hx0, hr0⟩ := jpl_state hsv hq info h0 (t := 36525 * T + 1 / 2) (by linarith) (by linarith) (T := T)
      (u := secular JplLp.earthMoon T) (by ring)
      (fun i => by rw [(ofName_earth h0).1, (ofName_earth h0).2]; rfl) hD hD1
    obtain ⟨x1, hx1, hr1⟩ := jpl_state hsv hq info h1 (t := 36525 * S + 1 / 2) (by linarith) (by linarith) (T := S)
      (u := secular JplLp.venus S) (by ring)
      (fun i => by rw [(ofName_venus h1).1, (ofName_venus h1).2]; rfl) hE hE1
    obtain ⟨d2, a2, b2, x2, hx2⟩ := jpl_number hsv hq info h2 (t := 36525 * S + 1 / 2 + 100) (by linarith) (by linarith)
    obtain ⟨d3, a3, b3, x3, hx3⟩ := jpl_number hsv hq info h3 (t := 36525 * S + 1 / 2 + 100 + d2 + 100) (by linarith) (by linarith)
    obtain ⟨d4, a4, b4, x4, hx4⟩ := jpl_number hsv hq info h4 (t := 36525 * S + 1 / 2 + 100 + d2 + 100 + d3 + 1900)
      (by linarith) (by linarith)
    obtain ⟨d5, a5, b5, x5, hx5⟩ := jpl_number hsv hq info h5
      (t := 36525 * S + 1 / 2 + 100 + d2 + 100 + d3 + 1900 + d4 + 1900) (by linarith) (by linarith)
    refine ⟨36525 * T + 1 / 2, 36525 * (S - T), 100 + d2, 100 + d3, 1900 + d4, 1900 + d5, ⟨by linarith, by linarith⟩,
      ⟨by linarith, by linarith⟩, ⟨by linarith, by linarith⟩, ⟨by linarith, by linarith⟩, ⟨by linarith, by linarith⟩,
      ⟨by linarith, by linarith⟩, [x0, x1, x2, x3, x4, x5], ⟨rfl, ?_⟩, 0, x0, x1, rfl, rfl, ?_, ?_⟩
    · intro i x hx
      rcases i with _ | _ | _ | _ | _ | _ | i
      · obtain rfl := Option.some.inj hx
        exact ⟨_, _, rfl, by simp [cumsum], hx0⟩
      · obtain rfl := Option.some.inj hx
        refine ⟨_, 36525 * S + 1 / 2, rfl, ?_, hx1⟩
        simp [cumsum]; ring
      · obtain rfl := Option.some.inj hx
        refine ⟨_, _, rfl, ?_, hx2⟩
        simp [cumsum]; ring
      · obtain rfl := Option.some.inj hx
        refine ⟨_, _, rfl, ?_, hx3⟩
        simp [cumsum]; ring
      · obtain rfl := Option.some.inj hx
        refine ⟨_, _, rfl, ?_, hx4⟩
        simp [cumsum]; ring
      · obtain rfl := Option.some.inj hx
        refine ⟨_, _, rfl, ?_, hx5⟩
        simp [cumsum]; ring
      · simp at hx
    · rw [hr0, hr1]
      intro h
      apply hne
      have hA : AU * AU ≠ 0 := mul_ne_zero AU_pos.ne' AU_pos.ne'
      have e : cross (AU • secPos (secular JplLp.earthMoon T) D) (AU • secPos (secular JplLp.venus S) E)
          = (AU * AU) • cross (secPos (secular JplLp.earthMoon T) D) (secPos (secular JplLp.venus S) E) := by
        ext <;> simp [cross] <;> ring
      have h' : (AU * AU) • cross (secPos (secular JplLp.earthMoon T) D) (secPos (secular JplLp.venus S) E) = 0 := by
        rw [← e]; exact h
      have hx := congrArg V3.x h'
      have hy := congrArg V3.y h'
      have hz := congrArg V3.z h'
      simp only [V3.smul_x, V3.smul_y, V3.smul_z, V3.zero_x, V3.zero_y, V3.zero_z, mul_eq_zero, hA, false_or] at hx hy hz
      ext
      · simpa [AU_pos.ne'] using hx
      · simpa [AU_pos.ne'] using hy
      · simpa [AU_pos.ne'] using hz
    · rw [hr0, hr1]
      have e : (cross (AU • secPos (secular JplLp.earthMoon T) D) (AU • secPos (secular JplLp.venus S) E)).z
          = (AU * AU) * (cross (secPos (secular JplLp.earthMoon T) D) (secPos (secular JplLp.venus S) E)).z := by
        simp [cross]; ring
      refine e.trans ?_
      rw [hz, mul_zero]

/-- A chromosome that is between the bounds gene by gene. -/
theorem inBox_of {bs : List (ℚ × ℚ)} {x : List ℝ} (h : List.Forall₂ (fun b v => (b.1 : ℝ) ≤ v ∧ v ≤ (b.2 : ℝ)) bs x) :
    InBox (bs.map (pyNum ·.1), bs.map (pyNum ·.2)) x := by
  have hl := h.length_eq
  refine ⟨by simpa using hl, by simpa using hl, fun i v hv => ?_⟩
  obtain ⟨hi, rfl⟩ := List.getElem?_eq_some_iff.1 hv
  have := h.get (i := i) (by omega) hi
  refine ⟨bs[i].1, bs[i].2, ?_, ?_, this.1, this.2⟩ <;> simp [List.getElem?_eq_getElem (show i < bs.length by omega)]

/-- **C77 fails**: each of the three problems has chromosomes within its bounds the evaluation of which raises the exception of
the Lambert problem (launch about 300 days before 2000, arrival at Venus with the Sun exactly in between). -/
theorem C77_raises_within_bounds {sv : Solver} (hsv : sv.Sound) (hq : sv.Quick) (info : Res String) (j : ℕ → Lambert.Junk)
    (E : PyEnv) (enc : Enc) {us : List JplLp} (hus : cassiniNames.map (fun n => JplLp.ofName n.toList) = us.map Res.ok)
    {p : Problem} (hp : cassini E enc = .ok p) {lb ub : List Py} (hb : p.bounds = .ok (lb, ub)) {m : Mga} (hm : p.Evaluates m)
    (hseq : m.seq = us.map (JplLp.udpla sv info)) :
    ∃ x, InBox (lb, ub) x ∧ (fitness j m x).run = .err .domainError := by
  obtain ⟨t0, t1, t2, t3, t4, t5, c0, c1, c2, c3, c4, c5, hpolar⟩ := cassini_polar hsv hq info hus
  obtain ⟨p', hp', -, -, hb', hev⟩ := C77_bounds E enc
  rw [hp] at hp'
  obtain rfl := Res.ok.inj hp'
  rw [hb] at hb'
  simp only [Res.ok.injEq, Prod.mk.injEq] at hb'
  obtain ⟨rfl, rfl⟩ := hb'
  obtain ⟨rfl, -, -, htof, -, -, hlen, -⟩ := (hev m).1 hm
  have hnl : m.nLegs = 5 := by simp [Mga.nLegs, hlen]
  suffices h : ∃ x, List.Forall₂ (fun b v => ((b : ℚ × ℚ).1 : ℝ) ≤ v ∧ v ≤ (b.2 : ℝ)) (cassiniBox m.enc) x ∧ x[0]? = some t0 ∧
      decodeTofs m.enc m.tof m.nLegs x = .ok (some [t1, t2, t3, t4, t5]) by
    obtain ⟨x, hx, hx0, hdec⟩ := h
    refine ⟨x, inBox_of hx, ?_⟩
    obtain ⟨t0', T, e1, e2, -, -, -, -, -, e3, -⟩ := C77_cassini hsv hq info j E m.enc hus hp hb (inBox_of hx) hm hseq
    rw [hx0] at e1
    obtain rfl := Option.some.inj e1
    rw [hdec] at e2
    obtain rfl := Option.some.inj (Res.ok.inj e2)
    exact e3 (by rw [hseq]; exact hpolar)
  cases henc : m.enc with
  | direct =>
    refine ⟨[t0, t1, t2, t3, t4, t5], ?_, rfl, rfl⟩
    simp only [cassiniBox, List.forall₂_cons, List.Forall₂.nil, and_true]
    norm_num
    refine ⟨⟨by linarith [c0.1], by linarith [c0.2]⟩, ⟨by linarith [c1.1], by linarith [c1.2]⟩,
      ⟨by linarith [c2.1], by linarith [c2.2]⟩, ⟨by linarith [c3.1], by linarith [c3.2]⟩,
      ⟨by linarith [c4.1], by linarith [c4.2]⟩, by linarith [c5.1], by linarith [c5.2]⟩
  | alpha =>
    have hs : [t1, t2, t3, t4, t5].sum = t1 + t2 + t3 + t4 + t5 := by simp; ring
    have hS1 : 4149 ≤ [t1, t2, t3, t4, t5].sum := by rw [hs]; linarith [c1.1, c2.1, c3.1, c4.1, c5.1]
    have hS2 : [t1, t2, t3, t4, t5].sum ≤ 4227 := by rw [hs]; linarith [c1.2, c2.2, c3.2, c4.2, c5.2]
    obtain ⟨a, ha, hback⟩ := C52_direct_alpha (t0 := t0) (ts := [t1, t2, t3, t4, t5]) (by linarith)
    rw [direct2alpha_eq (by linarith)] at ha
    obtain rfl := Option.some.inj (Res.ok.inj ha)
    refine ⟨t0 :: [t1, t2, t3, t4, t5].sum :: [t1, t2, t3, t4, t5].map fun t => exp (t / -[t1, t2, t3, t4, t5].sum), ?_, rfl, ?_⟩
    · generalize [t1, t2, t3, t4, t5].sum = W at *
      have hg : ∀ t, 100 ≤ t → t ≤ 1901 → ((1 / 1000 : ℚ) : ℝ) ≤ exp (t / -W) ∧ exp (t / -W) ≤ ((999 / 1000 : ℚ) : ℝ) := by
        intro t h1 h2
        have hW : 0 < W := by linarith
        have r1 : t / W ≤ 1 / 2 := by rw [div_le_iff₀ hW]; linarith
        have r2 : 1 / 100 ≤ t / W := by rw [le_div_iff₀ hW]; linarith
        rw [div_neg]
        constructor
        · have := add_one_le_exp (-(t / W))
          push_cast
          linarith
        · have h3 := add_one_le_exp (t / W)
          rw [exp_neg]
          have h4 : (exp (t / W))⁻¹ ≤ (1 + 1 / 100)⁻¹ := inv_anti₀ (by norm_num) (by linarith)
          push_cast
          norm_num at *
          linarith
      simp only [cassiniBox, List.replicate, List.map_cons, List.map_nil, List.forall₂_cons, List.Forall₂.nil, and_true]
      refine ⟨?_, ?_, hg _ (by linarith [c1.1]) (by linarith [c1.2]), hg _ (by linarith [c2.1]) (by linarith [c2.2]),
        hg _ (by linarith [c3.1]) (by linarith [c3.2]), hg _ (by linarith [c4.1]) (by linarith [c4.2]),
        hg _ (by linarith [c5.1]) (by linarith [c5.2])⟩
      · norm_num; exact ⟨by linarith [c0.1], by linarith [c0.2]⟩
      · norm_num; exact ⟨by linarith, by linarith⟩
    · rw [hnl]
      exact (C52_decode m.tof t0 _).1 _ hback
  | eta =>
    have hrem : ∀ i < [t1, t2, t3, t4, t5].length, 7000 - ([t1, t2, t3, t4, t5].take i).sum ≠ 0 := by
      intro i hi
      have h1 := (take_sum_le (T := [t1, t2, t3, t4, t5]) (by
        simp only [List.mem_cons, List.not_mem_nil, or_false]
        rintro t (rfl | rfl | rfl | rfl | rfl) <;> linarith [c1.1, c2.1, c3.1, c4.1, c5.1]) i).2
      have hs : [t1, t2, t3, t4, t5].sum = t1 + t2 + t3 + t4 + t5 := by simp; ring
      rw [hs] at h1
      have : 0 < 7000 - ([t1, t2, t3, t4, t5].take i).sum := by linarith [c1.2, c2.2, c3.2, c4.2, c5.2]
      exact this.ne'
    obtain ⟨e, he, hback⟩ := C52_direct_eta (t0 := t0) (tof := 7000) (by simp) hrem
    rw [direct2eta_eq (by simp) hrem] at he
    obtain rfl := Option.some.inj (Res.ok.inj he)
    refine ⟨t0 :: etaGenes 7000 [t1, t2, t3, t4, t5], ?_, rfl, ?_⟩
    · have hg : ∀ t r, 100 ≤ t → t ≤ 1901 → 2000 ≤ r → r ≤ 7000 →
          ((1 / 1000 : ℚ) : ℝ) ≤ t / r ∧ t / r ≤ ((999 / 1000 : ℚ) : ℝ) := by
        intro t r h1 h2 h3 h4
        push_cast
        constructor
        · rw [le_div_iff₀ (by linarith)]; linarith
        · rw [div_le_iff₀ (by linarith)]; linarith
      simp only [cassiniBox, List.replicate, etaGenes, List.forall₂_cons, List.Forall₂.nil, and_true]
      refine ⟨?_, hg _ _ ?_ ?_ ?_ ?_, hg _ _ ?_ ?_ ?_ ?_, hg _ _ ?_ ?_ ?_ ?_, hg _ _ ?_ ?_ ?_ ?_, hg _ _ ?_ ?_ ?_ ?_⟩
      · norm_num; exact ⟨by linarith [c0.1], by linarith [c0.2]⟩
      all_goals linarith [c1.1, c2.1, c3.1, c4.1, c5.1, c1.2, c2.2, c3.2, c4.2, c5.2]
    · rw [htof henc, hnl]
      exact (C52_decode 7000 t0 _).2.1 _ hback

/-- The hypotheses are met: the problem with the eta encoding, the ideal root finder. -/
example (E : PyEnv) (info : Res String) (j : ℕ → Lambert.Junk) : ∃ (us : List JplLp) (p : Problem) (b : List Py × List Py) (x : List ℝ),
    cassini E .eta = .ok p ∧ p.bounds = .ok b ∧ InBox b x ∧
    (fitness j (cassiniMga (us.map (JplLp.udpla idealSolver info)) .eta) x).run = .err .domainError := by
  have hn : ∀ s ∈ JplLp.names, ∃ q, JplLp.ofName s.toList = .ok q := fun s hs => (C34_names s.toList).1.2 ⟨s, hs, by
    unfold JplLp.SameName; simp⟩
  obtain ⟨e, he⟩ := hn "earth" (by simp [JplLp.names])
  obtain ⟨v, hv⟩ := hn "venus" (by simp [JplLp.names])
  obtain ⟨ju, hj⟩ := hn "jupiter" (by simp [JplLp.names])
  obtain ⟨s, hs⟩ := hn "saturn" (by simp [JplLp.names])
  obtain ⟨p, hp, -, -, hb, hev⟩ := C77_bounds E .eta
  obtain ⟨x, hx, hf⟩ := C77_raises_within_bounds idealSolver_sound idealSolver_quick info j E .eta (us := [e, v, v, e, ju, s])
    (by simp only [cassiniNames, List.map_cons, List.map_nil, he, hv, hj, hs]) hp hb
    ((hev (cassiniMga ([e, v, v, e, ju, s].map (JplLp.udpla idealSolver info)) .eta)).2
      ⟨rfl, rfl, rfl, fun _ => rfl, rfl, rfl, by simp [cassiniMga], rfl⟩) rfl
  exact ⟨_, p, _, x, hp, hb, hx, hf⟩

end Kep3.Mga
