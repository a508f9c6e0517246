import Verif.Plot.Problems
import Verif.Direct.Kepler
import Verif.Mga.Props66

/-!
# C87: plots and printed summaries of the trajectory problems show the trajectory
-/

namespace Kep3.Plot
open Kep3 Real V3 SF SFSpec

theorem bind_okD {α β : Type} {x : Res α} {f : α → Res β} {b : β} : (x >>= f) = .ok b ↔ ∃ a, x = .ok a ∧ f a = .ok b := by
  cases x <;> simp [bind, Res.bind]

/-! ## Direct transfers -/

theorem foldl_head {φ : RV ℝ → ℝ → Option (RV ℝ)} {kick : Craft → V3 ℝ → Craft} {h : ℝ} (g : ℕ → V3 ℝ) (is : List ℕ) (T : Trail)
    (hg : T.grid ≠ []) : (is.foldl (fun T i => trailStep φ kick h T (g i)) T).grid.head? = T.grid.head? ∧
      (T.arcs ≠ [] → (is.foldl (fun T i => trailStep φ kick h T (g i)) T).arcs.head? = T.arcs.head?) := by
  induction is generalizing T with
  | nil => exact ⟨rfl, fun _ => rfl⟩
  | cons i is ih =>
    rw [List.foldl_cons]
    obtain ⟨h1, h2⟩ := ih (trailStep φ kick h T (g i)) (by simp [trailStep])
    refine ⟨?_, fun ha => ?_⟩
    · rw [h1]
      simp only [trailStep]
      rw [List.head?_append_of_ne_nil _ hg]
    · rw [h2 (by simp [trailStep])]
      simp only [trailStep]
      rw [List.head?_append_of_ne_nil _ ha]

theorem foldl_arcs {φ : RV ℝ → ℝ → Option (RV ℝ)} {kick : Craft → V3 ℝ → Craft} {h : ℝ} (g : ℕ → V3 ℝ) (n : ℕ) (s : Craft) :
    ((List.range n).foldl (fun T i => trailStep φ kick h T (g i)) (.init s)).arcs.head? = if n = 0 then none else some (s.rv, h) := by
  cases n with
  | zero => rfl
  | succ n =>
    rw [List.range_succ_eq_map, List.foldl_cons, List.foldl_map]
    rw [(foldl_head (fun i => g (i + 1)) (List.range n) (trailStep φ kick h (.init s) (g 0)) (by simp [trailStep])).2
      (by simp [trailStep])]
    simp [trailStep, Trail.init]

/-- Where the drawing of a leg begins at its two ends. -/
theorem drawLeg_ends {φ : RV ℝ → ℝ → Option (RV ℝ)} {l : Leg ℝ} {units : ℝ} {a b : Bool} {pic : LegPic}
    (h : drawLeg φ l units a b = .ok pic) : pic.fwd.head? = some (inUnits units l.rvs.r) ∧
      pic.bck.head? = some (inUnits units l.rvf.r) ∧ (∀ q ∈ pic.fwdArcs.head?, q = inUnits units l.rvs.r) ∧
      ∀ q ∈ pic.bckArcs.head?, q = inUnits units l.rvf.r := by
  unfold drawLeg addSfLeg at h
  dsimp only at h
  split_ifs at h
  · simp [bind, Res.bind] at h
  · simp [bind, Res.bind] at h
  · simp [bind, Res.bind] at h
  simp only [Res.ok_bind, pure, Res.ok.injEq] at h
  subst h
  simp only [List.head?_map]
  refine ⟨?_, ?_, ?_, ?_⟩
  · unfold fwdTrail
    dsimp only
    rw [(foldl_head _ _ _ (by simp [Trail.init])).1]
    rfl
  · unfold bckTrail
    dsimp only
    rw [(foldl_head _ _ _ (by simp [Trail.init])).1]
    rfl
  · unfold fwdTrail
    dsimp only
    rw [foldl_arcs]
    split_ifs
    · simp
    · simp [inUnits?]
  · unfold bckTrail
    dsimp only
    rw [foldl_arcs]
    split_ifs
    · simp
    · simp [inUnits?]

theorem inUnits_ok {units : ℝ} (hu : units ≠ 0) (r : V3 ℝ) : inUnits units r = ⟨some (r.x / units), some (r.y / units), some (r.z / units)⟩ := by
  unfold inUnits; rw [div?_ok hu, div?_ok hu, div?_ok hu]

theorem AU_ne : AU ≠ 0 := by unfold AU; norm_num

theorem div_units {a u w : ℝ} (hu : u ≠ 0) (hw : w ≠ 0) : a / u = a / w ↔ u = w ∨ a = 0 := by
  constructor
  · intro h
    by_cases ha : a = 0
    · exact .inr ha
    · left
      field_simp at h
      exact h.symm
  · rintro (rfl | rfl) <;> simp

theorem marker_eq {units : ℝ} (hu : units ≠ 0) (r : V3 ℝ) : marker units r = inUnits units r ↔ units = AU ∨ r.x = 0 := by
  rw [inUnits_ok hu]
  unfold marker
  rw [div?_ok AU_ne, div?_ok hu, div?_ok hu]
  simp only [V3.mk.injEq, Option.some.injEq, and_true]
  rw [div_units AU_ne hu, eq_comm]

theorem planet_eq {units : ℝ} (hu : units ≠ 0) (r : V3 ℝ) : inUnits AU r = inUnits units r ↔ units = AU ∨ r = 0 := by
  rw [inUnits_ok hu, inUnits_ok AU_ne]
  simp only [V3.mk.injEq, Option.some.injEq]
  rw [div_units AU_ne hu, div_units AU_ne hu, div_units AU_ne hu, eq_comm]
  constructor
  · rintro ⟨h | h1, h | h2, h | h3⟩
    all_goals first | exact .inl h | skip
    right
    ext
    · exact h1
    · exact h2
    · exact h3
  · rintro (h | h)
    · simp [h]
    · subst h; simp

theorem setThrottles_ends {ts : List ℝ} {l m : Leg ℝ} (h : Direct.setThrottles ts l = .ok m) :
    m.rvs = l.rvs ∧ m.rvf = l.rvf ∧ m.tof = l.tof ∧ m.mf = l.mf := by
  unfold Direct.setThrottles at h
  split_ifs at h
  cases h
  exact ⟨rfl, rfl, rfl, rfl⟩

theorem setTof_ends {t : ℝ} {l m : Leg ℝ} (h : Direct.setTof t l = .ok m) :
    m.rvs = l.rvs ∧ m.rvf = l.rvf ∧ m.tof = t ∧ 0 ≤ t := by
  unfold Direct.setTof at h
  split_ifs at h with ht
  cases h
  exact ⟨rfl, rfl, rfl, not_lt.1 ht⟩

/-- **C87**: in the plot of a transfer between two points, each dot is where the drawing of the leg begins at that end if, and
only if, the units are astronomical units or the first coordinate is zero. -/
theorem C87_point2point_partial {φ : RV ℝ → ℝ → Option (RV ℝ)} {p : Direct.P2P} {x : List ℝ} {units : ℝ} (hu : units ≠ 0) {a b : Bool}
    {pic : P2PPic} (h : plotP2P φ p x units a b = .ok pic) :
    (pic.leg.fwd.head? = some pic.start ↔ units = AU ∨ p.leg.rvs.r.x = 0) ∧
      (pic.leg.bck.head? = some pic.goal ↔ units = AU ∨ p.leg.rvf.r.x = 0) := by
  unfold plotP2P at h
  obtain ⟨l, hl, h⟩ := bind_okD.1 h
  obtain ⟨leg, hleg, h⟩ := bind_okD.1 h
  simp only [pure, Res.ok.injEq] at h
  subst h
  obtain ⟨h1, h2, -, -⟩ := drawLeg_ends hleg
  have hr : l.rvs = p.leg.rvs ∧ l.rvf = p.leg.rvf := by
    unfold Direct.P2P.setLeg at hl
    obtain ⟨t, -, hl⟩ := bind_okD.1 hl
    obtain ⟨l1, h1, hl⟩ := bind_okD.1 hl
    obtain ⟨x0, -, hl⟩ := bind_okD.1 hl
    obtain ⟨a1, a2, -, -⟩ := setTof_ends h1
    obtain ⟨b1, b2, -, -⟩ := setThrottles_ends hl
    exact ⟨b1.trans a1, b2.trans a2⟩
  simp only [h1, h2, Option.some.injEq, hr]
  exact ⟨by rw [eq_comm, marker_eq hu], by rw [eq_comm, marker_eq hu]⟩

/-- The leg of a transfer between planets leaves from the first and arrives at the second. -/
theorem pl2pl_leg {p : Direct.Pl2Pl} {x : List ℝ} {l : Leg ℝ} {s f : RV ℝ} (h : p.setLeg x = .ok (l, s, f)) :
    ∃ x0 x1 t a b c d e g, x[0]? = some x0 ∧ x[1]? = some x1 ∧ Direct.last x = .ok t ∧ p.pls x0 = .ok s ∧ p.plf (x0 + t) = .ok f ∧
      Direct.slice 2 5 x = [a, b, c] ∧ Direct.slice 5 8 x = [d, e, g] ∧ l.rvs = ⟨s.r, s.v + ⟨a, b, c⟩⟩ ∧
      l.rvf = ⟨f.r, f.v + ⟨d, e, g⟩⟩ ∧ l.tof = t * DAY2SEC ∧ l.mf = x1 := by
  unfold Direct.Pl2Pl.setLeg at h
  obtain ⟨x0, h0, h⟩ := bind_okD.1 h
  obtain ⟨s', hs, h⟩ := bind_okD.1 h
  obtain ⟨t, ht, h⟩ := bind_okD.1 h
  obtain ⟨f', hf, h⟩ := bind_okD.1 h
  obtain ⟨vs, hvs, h⟩ := bind_okD.1 h
  obtain ⟨vf, hvf, h⟩ := bind_okD.1 h
  obtain ⟨l1, hl1, h⟩ := bind_okD.1 h
  obtain ⟨x1, h1, h⟩ := bind_okD.1 h
  obtain ⟨l2, hl2, h⟩ := bind_okD.1 h
  simp only [pure, Res.ok.injEq, Prod.mk.injEq] at h
  obtain ⟨rfl, rfl, rfl⟩ := h
  have zip : ∀ (v : V3 ℝ) (q : List ℝ) w, Direct.zipAdd v q = .ok w → ∃ a b c, q = [a, b, c] ∧ w = v + ⟨a, b, c⟩ := by
    intro v q w hw
    unfold Direct.zipAdd at hw
    split at hw
    · cases hw
      exact ⟨_, _, _, rfl, rfl⟩
    · cases hw
  obtain ⟨a, b, c, e1, rfl⟩ := zip _ _ _ hvs
  obtain ⟨d, e, g, e2, rfl⟩ := zip _ _ _ hvf
  obtain ⟨a1, a2, a3, -⟩ := setTof_ends hl1
  obtain ⟨b1, b2, b3, b4⟩ := setThrottles_ends hl2
  exact ⟨x0, x1, t, a, b, c, d, e, g, Mga.idx_ok.1 h0, Mga.idx_ok.1 h1, ht, hs, hf, e1, e2, b1.trans a1, b2.trans a2, b3.trans a3, b4⟩

/-- **C87**: in the plot of a transfer between two planets, the dots (the planets) are where the drawing of the leg begins at its
ends if, and only if, the units are astronomical units or the first coordinate of the planet (its position) is zero. -/
theorem C87_pl2pl_partial {φ : RV ℝ → ℝ → Option (RV ℝ)} {orbS orbF : ℝ → Res (List (V3 (Option ℝ)))} {p : Direct.Pl2Pl} {x : List ℝ}
    {units : ℝ} (hu : units ≠ 0) {a b : Bool} {pic : Pl2PlPic} (h : plotPl2Pl φ orbS orbF p x units a b = .ok pic) :
    ∃ x0 t s f, x[0]? = some x0 ∧ x[x.length - 1]? = some t ∧ p.pls x0 = .ok s ∧ p.plf (x0 + t) = .ok f ∧
      (pic.leg.fwd.head? = some pic.start ↔ units = AU ∨ s.r.x = 0) ∧
      (pic.leg.bck.head? = some pic.goal ↔ units = AU ∨ f.r.x = 0) ∧
      (pic.leg.fwd.head? = some pic.planetS ↔ units = AU ∨ s.r = 0) ∧
      (pic.leg.bck.head? = some pic.planetF ↔ units = AU ∨ f.r = 0) := by
  unfold plotPl2Pl at h
  obtain ⟨⟨l, s, f⟩, hl, h⟩ := bind_okD.1 h
  obtain ⟨x0, x1, t, _, _, _, _, _, _, h0, -, ht, hs, hf, -, -, r1, r2, -, -⟩ := pl2pl_leg hl
  dsimp only at h
  rw [Mga.idx_ok.2 h0, Res.ok_bind, ht, Res.ok_bind, hs, hf] at h
  obtain ⟨ps, hps, h⟩ := bind_okD.1 h
  obtain ⟨os, -, h⟩ := bind_okD.1 h
  obtain ⟨pf, hpf, h⟩ := bind_okD.1 h
  obtain ⟨of, -, h⟩ := bind_okD.1 h
  obtain ⟨leg, hleg, h⟩ := bind_okD.1 h
  simp only [pure, Res.ok.injEq] at h
  subst h
  obtain ⟨h1, h2, -, -⟩ := drawLeg_ends hleg
  have pl : ∀ (y : RV ℝ) q, addPlanet ((Res.ok y).bind fun s => .ok (spread (some s))) AU = .ok q → q = inUnits AU y.r := by
    intro y q hq
    cases hq
    rfl
  obtain rfl := pl _ _ hps
  obtain rfl := pl _ _ hpf
  have ht' : x[x.length - 1]? = some t := by
    unfold Direct.last at ht
    split_ifs at ht
    exact Mga.idx_ok.1 ht
  refine ⟨x0, t, s, f, h0, ht', hs, hf, ?_⟩
  simp only [h1, h2, r1, r2, Option.some.injEq]
  exact ⟨by rw [eq_comm, marker_eq hu], by rw [eq_comm, marker_eq hu], by rw [eq_comm, planet_eq hu], by rw [eq_comm, planet_eq hu]⟩

/-- **C87**: the summary of a transfer between planets: the epochs and the time of flight are those of the leg, the relative
velocities and their norms (in km/s) those between the ends of the leg and the planets at these epochs, the mass that of the
leg. -/
theorem C87_pl2pl_pretty {p : Direct.Pl2Pl} {x : List ℝ} {q : Pl2PlText} (h : prettyPl2Pl p x = .ok q) :
    ∃ s f, p.setLeg x = .ok (q.leg, s, f) ∧ p.pls q.launch = .ok s ∧ p.plf q.arrival = .ok f ∧ q.arrival = q.launch + q.tof ∧
      q.leg.tof = q.tof * 86400 ∧ q.leg.mf = q.finalMass ∧ q.leg.rvs.r = s.r ∧ q.leg.rvf.r = f.r ∧
      q.leg.rvs.v - s.v = (1000 : ℝ) • q.launchVec ∧ q.leg.rvf.v - f.v = (1000 : ℝ) • q.arrivalVec ∧
      q.launchDv = norm q.launchVec ∧ q.arrivalDv = norm q.arrivalVec := by
  unfold prettyPl2Pl at h
  obtain ⟨⟨l, s, f⟩, hl, h⟩ := bind_okD.1 h
  obtain ⟨x0, x1, t, a, b, c, d, e, g, h0, h1, ht, hs, hf, e1, e2, r1, r2, r3, r4⟩ := pl2pl_leg hl
  have k : ∀ i < 3, x[2 + i]? = [a, b, c][i]? := by
    intro i hi
    rw [← e1, Direct.slice, List.getElem?_drop, List.getElem?_take_of_lt (by omega)]
  have k' : ∀ i < 3, x[5 + i]? = [d, e, g][i]? := by
    intro i hi
    rw [← e2, Direct.slice, List.getElem?_drop, List.getElem?_take_of_lt (by omega)]
  have k2 : x[2]? = some a := k 0 (by omega)
  have k3 : x[3]? = some b := k 1 (by omega)
  have k4 : x[4]? = some c := k 2 (by omega)
  have k5 : x[5]? = some d := k' 0 (by omega)
  have k6 : x[6]? = some e := k' 1 (by omega)
  have k7 : x[7]? = some g := k' 2 (by omega)
  dsimp only at h
  rw [Mga.idx_ok.2 h0, Res.ok_bind, ht, Res.ok_bind, Mga.idx_ok.2 k2, Res.ok_bind, Mga.idx_ok.2 k3, Res.ok_bind,
    Mga.idx_ok.2 k4, Res.ok_bind, Mga.idx_ok.2 k5, Res.ok_bind, Mga.idx_ok.2 k6, Res.ok_bind, Mga.idx_ok.2 k7, Res.ok_bind,
    Mga.idx_ok.2 h1, Res.ok_bind] at h
  simp only [pure, Res.ok.injEq] at h
  subst h
  have hn : ∀ a b c : ℝ, √(a ^ 2 + b ^ 2 + c ^ 2) / 1000 = norm (⟨a / 1000, b / 1000, c / 1000⟩ : V3 ℝ) := by
    intro a b c
    rw [V3.norm, dot]
    dsimp only
    rw [show a / 1000 * (a / 1000) + b / 1000 * (b / 1000) + c / 1000 * (c / 1000) = (a ^ 2 + b ^ 2 + c ^ 2) / 1000 ^ 2 by ring,
      sqrt_div' _ (by norm_num), sqrt_sq (by norm_num)]
  refine ⟨s, f, hl, hs, hf, rfl, by simpa [DAY2SEC] using r3, r4, by rw [r1], by rw [r2], ?_, ?_, hn _ _ _, hn _ _ _⟩
  · rw [r1]
    ext <;> simp <;> ring
  · rw [r2]
    ext <;> simp <;> ring

/-! ## Multiple gravity assists -/

/-- A Lambert problem with a velocity is not in a plane through the vertical. -/
theorem make_zD {j : Lambert.Junk} {r0 r1 : V3 ℝ} {tof mu : ℝ} {L : Lambert} {v : V3 ℝ}
    (h : Lambert.make j r0 r1 tof mu false 0 = .ok L) (hv : L.v0[0]? = some (some v)) : (cross r0 r1).z ≠ 0 := by
  obtain ⟨-, -, g, hg, -, -, hL⟩ := Lambert.make_inv h
  rw [hL] at hv
  simp only [List.map_map, List.getElem?_map, Option.map_eq_some_iff, Function.comp] at hv
  obtain ⟨a, -, w, hw, -⟩ := hv
  obtain ⟨x, -, hw⟩ := Option.bind_eq_some_iff.1 hw
  have hf : ∃ f, g.frame = some f := by
    unfold Lambert.velocities at hw
    simp only [Option.bind_eq_bind, Option.bind_eq_some_iff] at hw
    obtain ⟨_, -, _, -, _, -, _, -, _, -, _, -, _, -, _, -, f, hf, -⟩ := hw
    exact ⟨f, hf⟩
  obtain ⟨f, hf⟩ := hf
  unfold Lambert.geom at hg
  dsimp only at hg
  split_ifs at hg with hn
  cases hg
  dsimp only at hf
  obtain ⟨n, hnn, -⟩ := Option.bind_eq_some_iff.1 hf
  rw [hnn] at hn
  simp only [Option.any_some, decide_eq_true_eq] at hn
  intro hz
  apply hn
  unfold Lambert.normal at hnn
  simp only [Option.bind_eq_bind, Option.bind_eq_some_iff, Option.pure_def, Option.some.injEq] at hnn
  obtain ⟨a, ha, b, hb, c, hc, rfl⟩ := hnn
  unfold vdiv? at ha hb hc
  split_ifs at ha hb hc with h1 h2 h3
  simp only [Option.some.injEq] at ha hb hc
  subst ha hb hc
  have : r0.x * r1.y - r0.y * r1.x = 0 := hz
  simp only [cross]
  rw [show r0.x / norm r0 * (r1.y / norm r1) - r0.y / norm r0 * (r1.x / norm r1) =
    (r0.x * r1.y - r0.y * r1.x) / (norm r0 * norm r1) by field_simp, this]
  simp

theorem mapM_okD {α β : Type} {f : α → Res β} : ∀ {l : List α}, (∀ a ∈ l, ∃ b, f a = .ok b) →
    ∃ bs, l.mapM f = .ok bs ∧ bs.length = l.length ∧ ∀ (k : ℕ) a, l[k]? = some a → ∃ b, bs[k]? = some b ∧ f a = .ok b
  | [], _ => ⟨[], rfl, rfl, by simp⟩
  | a :: l, h => by
    obtain ⟨b, hb⟩ := h a (by simp)
    obtain ⟨bs, h1, h2, h3⟩ := mapM_okD (l := l) fun a ha => h a (by simp [ha])
    refine ⟨b :: bs, by rw [List.mapM_cons, hb, Res.ok_bind, h1]; rfl, by simp [h2], fun k c hk => ?_⟩
    cases k with
    | zero =>
      simp only [List.getElem?_cons_zero, Option.some.injEq] at hk
      subst hk
      exact ⟨b, rfl, hb⟩
    | succ k => exact h3 k c hk

/-- Python's index of a leg: negative ones count from the end. -/
def legOf (n : ℕ) (k : ℤ) : ℕ := (if k < 0 then k + n else k).toNat

theorem computeDvs_legs {j : ℕ → Lambert.Junk} {p : Mga.Mga} {x : List ℝ} {d : Mga.Dvs}
    (h : (Mga.computeDvs j p x).run = .ok (some d)) (hlen : x.length = p.dim) : Mga.Legs j p d.legs d.ep := by
  have : (Mga.toPlanet j p x).run = .ok (some (d.legs, d.ep)) := by
    unfold Mga.toPlanet
    rw [if_neg (by simpa using hlen), Mga.run_bind_some]
    exact ⟨d, h, by simp⟩
  exact (Mga.toPlanet_legs this).1

/-- An arc drawn by `mga.plot`. -/
theorem mgaArc_ok {j : Lambert.Junk} {r0 r1 : V3 ℝ} {tof mu : ℝ} {L : Lambert} (h : Lambert.make j r0 r1 tof mu false 0 = .ok L)
    {v w : V3 ℝ} (hv : L.v0[0]? = some (some v)) (hT : Lambert.Transfer L.r0 L.r1 L.tof L.mu false 0 v w) (units : ℝ) :
    ∃ pts, mgaArc units L = .ok (some (pts.map (inUnits units))) ∧ pts.head? = some r0 ∧ pts.getLast? = some r1 ∧
      pts.length = 60 ∧ ∀ γ, TwoBody mu γ → γ 0 = ⟨r0, v⟩ → Drawn γ tof 60 pts := by
  obtain ⟨hf, hm, g, -, -, -, hL⟩ := Lambert.make_inv h
  have hz := make_zD h hv
  obtain ⟨pts, p1, p2, p3, p4⟩ := C73_direct (L := L) (v0 := v) (v1 := w) (by rw [hL]; exact hm) (by rw [hL]; exact hf)
    hT hv (by rw [hL]; exact hz) (N := 60) (by norm_num)
  rw [hL] at p2 p3 p4
  refine ⟨pts, by unfold mgaArc; rw [p1]; rfl, p2, p3, ?_, p4⟩
  unfold addLambert at p1
  rw [if_neg (by omega), show pyIndex L.v0 0 = .ok (some v) from pyIndex_nat hv, Res.ok_bind] at p1
  simp only [if_true, Res.pure_eq, Res.ok.injEq, Option.map_some, Option.some.injEq] at p1
  rw [← p1, List.length_map, linspace_length]

/-- **C87**: for any units, the plot of a gravity-assist trajectory shows each planet of the sequence where it is at its
encounter, its orbit, and for each leg asked for (all of them by default) an arc of sixty points from one planet to the next,
which are the positions at increasing times of the motion with the velocity of that leg. -/
theorem C87_mga {j : ℕ → Lambert.Junk} {p : Mga.Mga} {x : List ℝ} {d : Mga.Dvs} (h : (Mga.computeDvs j p x).run = .ok (some d))
    (hlen : x.length = p.dim) (hgood : ∀ (i : ℕ) L, d.legs[i]? = some L → ∃ v w, L.v0[0]? = some (some v) ∧
      Lambert.Transfer L.r0 L.r1 L.tof L.mu false 0 v w) {nan : Res (List (V3 (Option ℝ)))} {units : ℝ} (hu : units ≠ 0) {N : ℕ}
    (horb : ∀ u ∈ p.seq, ∃ o, addPlanetOrbit nan u none units N = .ok o) {ids : List ℤ}
    (hids : ∀ k ∈ ids, -(p.nLegs : ℤ) ≤ k ∧ k < p.nLegs) :
    ∃ pic, (plotMga nan j p x units N ids).run = .ok (some pic) ∧ pic.planets.length = p.seq.length ∧
      pic.orbits.length = p.seq.length ∧
      (∀ (i : ℕ) u, p.seq[i]? = some u → ∃ t y z, d.ep[i]? = some t ∧ Planet.eph u t = .ok y ∧ nums y = some z ∧
        pic.planets[i]? = some ⟨some (z.r.x / units), some (z.r.y / units), some (z.r.z / units)⟩ ∧
        ∃ o, pic.orbits[i]? = some o ∧ addPlanetOrbit nan u none units N = .ok o) ∧
      pic.arcs.length = (if ids = [] then p.nLegs else ids.length) ∧
      ∀ k < pic.arcs.length, ∃ i L v arc pts, i = (if ids = [] then k else legOf p.nLegs (ids.getD k 0)) ∧ i < p.nLegs ∧
        d.legs[i]? = some L ∧ L.v0[0]? = some (some v) ∧ pic.arcs[k]? = some (some arc) ∧ arc.length = 60 ∧
        arc.head? = pic.planets[i]? ∧ arc.getLast? = pic.planets[i + 1]? ∧
        arc = pts.map (fun r : V3 ℝ => ⟨some (r.x / units), some (r.y / units), some (r.z / units)⟩) ∧
        ∀ γ, TwoBody p.commonMu γ → γ 0 = ⟨L.r0, v⟩ → Drawn γ L.tof 60 pts := by
  have G := computeDvs_legs h hlen
  have hn := G.nonempty
  have hseq : p.seq.length = p.nLegs + 1 := by unfold Mga.Mga.nLegs at hn ⊢; omega
  -- the planets
  have hpl : ∀ i ∈ List.range p.seq.length, ∃ b, mgaPlanet nan p.seq d.ep units N i = .ok b := by
    intro i hi
    rw [List.mem_range] at hi
    obtain ⟨t, ht⟩ : ∃ t, d.ep[i]? = some t := ⟨_, List.getElem?_eq_getElem (by rw [G.ep_len]; omega)⟩
    obtain ⟨u, y, h1, h2, h3⟩ := G.planets i t ht
    obtain ⟨o, ho⟩ := horb u (List.mem_of_getElem? h1)
    unfold mgaPlanet addPlanet
    rw [Mga.idx_ok.2 h1, Res.ok_bind, Mga.idx_ok.2 ht, Res.ok_bind, h2, ho]
    exact ⟨_, rfl⟩
  obtain ⟨pl, hpl1, hpl2, hpl3⟩ := mapM_okD hpl
  have hplanet : ∀ (i : ℕ) u, p.seq[i]? = some u → ∃ t y z o, d.ep[i]? = some t ∧ Planet.eph u t = .ok y ∧ nums y = some z ∧
      pl[i]? = some (inUnits units z.r, o) ∧ addPlanetOrbit nan u none units N = .ok o := by
    intro i u hi
    have hil : i < p.seq.length := (List.getElem?_eq_some_iff.1 hi).1
    obtain ⟨t, ht⟩ : ∃ t, d.ep[i]? = some t := ⟨_, List.getElem?_eq_getElem (by rw [G.ep_len]; omega)⟩
    obtain ⟨u', y, h1, h2, h3⟩ := G.planets i t ht
    obtain rfl : u = u' := by rw [hi] at h1; simpa using h1
    obtain ⟨z, hz⟩ := Option.isSome_iff_exists.1 h3
    obtain ⟨o, ho⟩ := horb u (List.mem_of_getElem? h1)
    obtain ⟨b, hb1, hb2⟩ := hpl3 i i (by simp [hil])
    refine ⟨t, y, z, o, ht, h2, hz, ?_, ho⟩
    rw [hb1]
    unfold mgaPlanet addPlanet at hb2
    rw [Mga.idx_ok.2 h1, Res.ok_bind, Mga.idx_ok.2 ht, Res.ok_bind, h2, ho] at hb2
    simp only [Res.ok_bind, Res.pure_eq, Res.ok.injEq] at hb2
    rw [← hb2]
    unfold nums at hz
    simp only [Option.bind_eq_bind, Option.bind_eq_some_iff, Option.pure_def, Option.some.injEq] at hz
    obtain ⟨a, ha, b, hb, c, hc, _, -, _, -, _, -, rfl⟩ := hz
    rw [ha, hb, hc]
    rfl
  -- one arc
  have hleg : ∀ i < p.nLegs, ∃ L v pts, d.legs[i]? = some L ∧ L.v0[0]? = some (some v) ∧
      mgaArc units L = .ok (some (pts.map (inUnits units))) ∧ (pts.map (inUnits units)).head? = (pl.map Prod.fst)[i]? ∧
      (pts.map (inUnits units)).getLast? = (pl.map Prod.fst)[i + 1]? ∧
      pts.length = 60 ∧ ∀ γ, TwoBody p.commonMu γ → γ 0 = ⟨L.r0, v⟩ → Drawn γ L.tof 60 pts := by
    intro i hi
    obtain ⟨s, hs⟩ : ∃ t, d.ep[i]? = some t := ⟨_, List.getElem?_eq_getElem (by rw [G.ep_len]; omega)⟩
    obtain ⟨e, he⟩ : ∃ t, d.ep[i + 1]? = some t := ⟨_, List.getElem?_eq_getElem (by rw [G.ep_len]; omega)⟩
    obtain ⟨u, w, a, b, x, y, L, h1, h2, h3, h4, h5, h6, h7, h8⟩ := G.arc i s e hs he
    obtain ⟨v, v1, hv, hT⟩ := hgood i L h7
    obtain ⟨pts, q1, q2, q3, hlen60, q4⟩ := mgaArc_ok h8 hv hT units
    obtain ⟨-, -, g, -, -, -, hL⟩ := Lambert.make_inv h8
    obtain ⟨t', a', x', o, ht', ha', hx', hp, -⟩ := hplanet i u h1
    obtain ⟨t'', b', y', o', ht'', hb', hy', hp', -⟩ := hplanet (i + 1) w h2
    rw [hs] at ht'; cases ht'
    rw [he] at ht''; cases ht''
    rw [h3] at ha'; cases ha'
    rw [h5] at hb'; cases hb'
    rw [h4] at hx'; cases hx'
    rw [h6] at hy'; cases hy'
    refine ⟨L, v, pts, h7, hv, q1, ?_, ?_, hlen60, ?_⟩
    · rw [List.head?_map, q2, List.getElem?_map, hp]; rfl
    · rw [List.getLast?_map, q3, List.getElem?_map, hp']; rfl
    · intro γ hγ h0
      rw [hL] at h0 ⊢
      exact q4 γ hγ h0
  have hscale : ∀ pts : List (V3 ℝ), pts.map (inUnits units) =
      pts.map fun r : V3 ℝ => ⟨some (r.x / units), some (r.y / units), some (r.z / units)⟩ := by
    intro pts
    apply List.map_congr_left
    intro r _
    exact inUnits_ok hu r
  -- the arcs
  have harcs : ∃ arcs, mgaArcs units d.legs ids = .ok arcs ∧ arcs.length = (if ids = [] then p.nLegs else ids.length) ∧
      ∀ k < arcs.length, ∃ i L a, i = (if ids = [] then k else legOf p.nLegs (ids.getD k 0)) ∧ i < p.nLegs ∧ d.legs[i]? = some L ∧
        mgaArc units L = .ok a ∧ arcs[k]? = some a := by
    unfold mgaArcs
    by_cases hi : ids = []
    · rw [if_pos (by simp [hi])]
      obtain ⟨arcs, e1, e2, e3⟩ := mapM_okD (f := mgaArc units) (l := d.legs) fun L hL => by
        obtain ⟨i, hil, rfl⟩ := List.getElem_of_mem hL
        obtain ⟨L', v, pts, f1, -, f2, -⟩ := hleg i (by rw [← G.legs_len]; exact hil)
        rw [List.getElem?_eq_getElem hil] at f1
        cases f1
        exact ⟨_, f2⟩
      refine ⟨arcs, e1, by rw [if_pos hi, e2, G.legs_len], fun k hk => ?_⟩
      rw [e2] at hk
      obtain ⟨a, f1, f2⟩ := e3 k _ (List.getElem?_eq_getElem hk)
      exact ⟨k, _, a, by rw [if_pos hi], by rw [← G.legs_len]; exact hk, List.getElem?_eq_getElem hk, f2, f1⟩
    · have hidx : ∀ k ∈ ids, ∃ L, pyIndex d.legs k = .ok L ∧ legOf p.nLegs k < p.nLegs ∧ d.legs[legOf p.nLegs k]? = some L := by
        intro k hk
        obtain ⟨k1, k2⟩ := hids k hk
        have hl : legOf p.nLegs k < p.nLegs := by unfold legOf; split_ifs <;> omega
        obtain ⟨L, hl'⟩ : ∃ L, d.legs[legOf p.nLegs k]? = some L := ⟨_, List.getElem?_eq_getElem (by rw [G.legs_len]; exact hl)⟩
        refine ⟨_, ?_, hl, hl'⟩
        unfold pyIndex
        rw [G.legs_len]
        dsimp only
        rw [if_neg (by split_ifs <;> omega)]
        unfold legOf at hl'
        rw [hl']
      rw [if_neg (by simpa using hi)]
      obtain ⟨arcs, e1, e2, e3⟩ := mapM_okD (f := fun k => pyIndex d.legs k >>= fun L => mgaArc units L) (l := ids) fun k hk => by
        obtain ⟨L, f1, f2, f3⟩ := hidx k hk
        obtain ⟨L', v, pts, g1, -, g2, -⟩ := hleg _ f2
        rw [f3] at g1
        cases g1
        exact ⟨_, by rw [f1, Res.ok_bind, g2]⟩
      refine ⟨arcs, e1, by rw [if_neg hi, e2], fun k hk => ?_⟩
      rw [e2] at hk
      obtain ⟨a, f1, f2⟩ := e3 k _ (List.getElem?_eq_getElem hk)
      obtain ⟨L, g1, g2, g3⟩ := hidx _ (List.getElem_mem hk)
      rw [g1, Res.ok_bind] at f2
      exact ⟨_, L, a, by rw [if_neg hi, List.getD_eq_getElem?_getD, List.getElem?_eq_getElem hk]; rfl, g2, g3, f2, f1⟩
  obtain ⟨arcs, e1, e2, e3⟩ := harcs
  refine ⟨⟨pl.map Prod.fst, pl.map Prod.snd, arcs⟩, ?_, by simp [hpl2], by simp [hpl2], ?_, e2, ?_⟩
  · unfold plotMga
    simp only [Mga.run_bind_some, Mga.run_lift_some, Mga.run_pure_some]
    exact ⟨d, h, pl, hpl1, arcs, e1, rfl⟩
  · intro i u hi
    obtain ⟨t, y, z, o, f1, f2, f3, f4, f5⟩ := hplanet i u hi
    refine ⟨t, y, z, f1, f2, f3, ?_, o, ?_, f5⟩
    · rw [← inUnits_ok hu, List.getElem?_map, f4]; rfl
    · rw [List.getElem?_map, f4]; rfl
  · intro k hk
    obtain ⟨i, L, a, f1, f2, f3, f4, f5⟩ := e3 k hk
    obtain ⟨L', v, pts, g1, g2, g3, g4, g5, g6, g7⟩ := hleg i f2
    rw [f3] at g1; cases g1
    rw [g3] at f4; cases f4
    exact ⟨i, L, v, _, pts, f1, f2, f3, g2, f5, by simp [g6], g4, g5, hscale pts, g7⟩

/-- **C87**: a leg that does not exist is not drawn: the plot fails. -/
theorem C87_mga_index {j : ℕ → Lambert.Junk} {p : Mga.Mga} {x : List ℝ} {d : Mga.Dvs}
    (h : (Mga.computeDvs j p x).run = .ok (some d)) (hlen : x.length = p.dim) (nan : Res (List (V3 (Option ℝ)))) (units : ℝ) (N : ℕ)
    {ids : List ℤ} {k : ℤ} (hk : k ∈ ids) (hout : k < -(p.nLegs : ℤ) ∨ p.nLegs ≤ k) (pic : MgaPic) :
    (plotMga nan j p x units N ids).run ≠ .ok (some pic) := by
  have G := computeDvs_legs h hlen
  intro hp
  unfold plotMga at hp
  simp only [Mga.run_bind_some, Mga.run_lift_some, Mga.run_pure_some] at hp
  obtain ⟨d', hd', pl, -, arcs, harcs, -⟩ := hp
  rw [h] at hd'
  cases hd'
  unfold mgaArcs at harcs
  rw [if_neg (by intro h0; rw [List.length_eq_zero_iff] at h0; simp [h0] at hk)] at harcs
  have key : ∀ (l : List ℤ) bs, l.mapM (fun k => pyIndex d.legs k >>= fun L => mgaArc units L) = .ok bs → k ∉ l := by
    intro l
    induction l with
    | nil => simp
    | cons a l ih =>
      intro bs hbs
      rw [List.mapM_cons] at hbs
      obtain ⟨b, hb, hbs⟩ := bind_okD.1 hbs
      obtain ⟨bs', hbs', -⟩ := bind_okD.1 hbs
      obtain ⟨L, hL, -⟩ := bind_okD.1 hb
      rw [List.mem_cons, not_or]
      refine ⟨?_, ih bs' hbs'⟩
      rintro rfl
      unfold pyIndex at hL
      rw [G.legs_len] at hL
      dsimp only at hL
      split_ifs at hL with h1 h2 h2
      · omega
      · split at hL
        · rename_i hq
          have := (List.getElem?_eq_some_iff.1 hq).1
          rw [G.legs_len] at this
          omega
        · cases hL
  exact key ids arcs harcs hk

theorem inner_get {α : Type} (l : List α) (i : ℕ) (hi : i + 2 < l.length) : (inner l)[i]? = l[i + 1]? := by
  unfold inner
  rw [List.getElem?_drop, List.getElem?_dropLast, if_pos (by omega), Nat.add_comm]

theorem inner_length {α : Type} (l : List α) : (inner l).length = l.length - 2 := by
  unfold inner
  simp
  omega

/-- **C87**: the summary of a gravity-assist trajectory adds up: the total printed is the first objective and the sum of the
impulses printed; all fly-bys are printed, each with the name of its planet, its epoch and its impulse; the epochs are the
departure plus the times of flight printed. -/
theorem C87_mga_pretty {j : ℕ → Lambert.Junk} {p : Mga.Mga} {x f : List ℝ} (h : (Mga.fitness j p x).run = .ok (some f))
    (hlen : x.length = p.dim) (hname : ∀ u ∈ p.seq, ∃ n, Planet.getName u = .ok n) :
    ∃ d q, (Mga.computeDvs j p x).run = .ok (some d) ∧ (prettyMga j p x).run = .ok (some q) ∧ f[0]? = some q.total ∧
      q.total = q.launch + (q.flybys.map FlybyText.dv).sum + q.arrival ∧ x[0]? = some q.depEpoch ∧
      q.arrEpoch = q.depEpoch + q.tofs.sum ∧ q.tofs.length = p.nLegs ∧ q.launch = max 0 (q.hyperbolic - p.vinf) ∧
      Mga.Cost p d.legs d.ep q.launch (q.flybys.map FlybyText.dv) q.arrival ∧
      q.flybys.length = p.nLegs - 1 ∧
      (∀ (i : ℕ) b, q.flybys[i]? = some b → ∃ u, p.seq[i + 1]? = some u ∧ Planet.getName u = .ok b.name ∧
        b.epoch = q.depEpoch + (q.tofs.take (i + 1)).sum ∧ d.ep[i + 1]? = some b.epoch) ∧
      (∃ u, p.seq[0]? = some u ∧ Planet.getName u = .ok q.depName) ∧
      (∃ u, p.seq[p.nLegs]? = some u ∧ Planet.getName u = .ok q.arrName) := by
  unfold Mga.fitness at h
  simp only [Mga.run_bind_some] at h
  obtain ⟨d, hd, hf⟩ := h
  replace hf : ∃ T, f = if p.multiObjective then [d.launch + d.flyby.sum + d.arrival, T] else [d.launch + d.flyby.sum + d.arrival] := by
    split at hf <;> simp only [Mga.run_bind_some, Mga.run_pure_some] at hf
    · obtain ⟨T, -, hf⟩ := hf
      exact ⟨T, hf.symm⟩
    · obtain ⟨T, -, hf⟩ := hf
      exact ⟨T, hf.symm⟩
    · obtain ⟨y, -, T, -, hf⟩ := hf
      exact ⟨T, hf.symm⟩
  obtain ⟨T, hf⟩ := hf
  have hd' := hd
  have G := computeDvs_legs hd hlen
  have hn := G.nonempty
  have hseq : p.seq.length = p.nLegs + 1 := by unfold Mga.Mga.nLegs at hn ⊢; omega
  unfold Mga.computeDvs at hd
  simp only [Mga.run_bind_some, Mga.run_lift_some, Mga.idx_ok, OptionT.run_mk] at hd
  obtain ⟨tofs, htofs, x0, hx0, hfly⟩ := hd
  have htl := Mga.decode_length htofs hlen hn
  obtain ⟨-, -, hT, hep⟩ := Mga.fly_legs hfly htl
  have hcost := Mga.fly_cost hfly htl
  have hepk : ∀ k ≤ p.nLegs, d.ep[k]? = some (x0 + (tofs.take k).sum) := by
    intro k hk
    rw [hep, Mga.cumsum_get _ _ _ (by simp [htl]; omega)]
    simp
  -- names
  obtain ⟨names, hn1, -, hn3⟩ := mapM_okD hname
  have hnm : ∀ i ≤ p.nLegs, ∃ u n, p.seq[i]? = some u ∧ Planet.getName u = .ok n := by
    intro i hi
    have hu := List.getElem?_eq_getElem (l := p.seq) (i := i) (by omega)
    obtain ⟨n, hn⟩ := hname _ (List.getElem_mem (by omega : i < p.seq.length))
    exact ⟨_, n, hu, hn⟩
  -- fly-bys
  have hfb : ∃ fb, flybyTexts p.seq d.ep d.flyby = .ok fb ∧ fb.length = p.nLegs - 1 ∧ fb.map FlybyText.dv = d.flyby ∧
      ∀ (i : ℕ) b, fb[i]? = some b → ∃ u, p.seq[i + 1]? = some u ∧ Planet.getName u = .ok b.name ∧ d.ep[i + 1]? = some b.epoch := by
    have hz : ((inner p.seq).zip ((inner d.ep).zip d.flyby)).length = p.nLegs - 1 := by
      simp only [List.length_zip, inner_length, hcost.count, G.ep_len, hseq]
      omega
    have hzi : ∀ (i : ℕ) q, ((inner p.seq).zip ((inner d.ep).zip d.flyby))[i]? = some q →
        p.seq[i + 1]? = some q.1 ∧ d.ep[i + 1]? = some q.2.1 ∧ d.flyby[i]? = some q.2.2 := by
      intro i q hq
      have hi : i < p.nLegs - 1 := by rw [← hz]; exact (List.getElem?_eq_some_iff.1 hq).1
      rw [List.getElem?_zip_eq_some, List.getElem?_zip_eq_some] at hq
      rw [inner_get _ _ (by omega), inner_get _ _ (by rw [G.ep_len]; omega)] at hq
      exact hq
    unfold flybyTexts
    obtain ⟨fb, e1, e2, e3⟩ := mapM_okD (f := fun q : Udpla × ℝ × ℝ => Planet.getName q.1 >>= fun n =>
        (pure (⟨n, q.2.1, q.2.2⟩ : FlybyText) : Res FlybyText)) (l := (inner p.seq).zip ((inner d.ep).zip d.flyby)) fun q hq => by
      obtain ⟨i, hi, rfl⟩ := List.getElem_of_mem hq
      obtain ⟨h1, -, -⟩ := hzi i _ (List.getElem?_eq_getElem hi)
      obtain ⟨n, hn⟩ := hname _ (List.mem_of_getElem? h1)
      exact ⟨_, by rw [hn]; rfl⟩
    have hb : ∀ (i : ℕ) b, fb[i]? = some b → ∃ u, p.seq[i + 1]? = some u ∧ Planet.getName u = .ok b.name ∧ d.ep[i + 1]? = some b.epoch ∧
        d.flyby[i]? = some b.dv := by
      intro i b hb
      have hi : i < ((inner p.seq).zip ((inner d.ep).zip d.flyby)).length := by rw [← e2]; exact (List.getElem?_eq_some_iff.1 hb).1
      obtain ⟨b', f1, f2⟩ := e3 i _ (List.getElem?_eq_getElem hi)
      rw [hb] at f1
      cases f1
      obtain ⟨h1, h2, h3⟩ := hzi i _ (List.getElem?_eq_getElem hi)
      obtain ⟨n, hn⟩ := hname _ (List.mem_of_getElem? h1)
      rw [hn, Res.ok_bind] at f2
      cases f2
      exact ⟨_, h1, hn, h2, h3⟩
    refine ⟨fb, e1, by rw [e2, hz], ?_, fun i b h => ?_⟩
    · apply List.ext_getElem?
      intro i
      rw [List.getElem?_map]
      cases hi : fb[i]? with
      | none =>
        rw [List.getElem?_eq_none_iff, e2, hz] at hi
        symm
        rw [Option.map_none, List.getElem?_eq_none_iff, hcost.count]
        exact hi
      | some b =>
        obtain ⟨_, -, -, -, h4⟩ := hb i b hi
        rw [h4]; rfl
    · obtain ⟨u, h1, h2, h3, -⟩ := hb i b h
      exact ⟨u, h1, h2, h3⟩
  obtain ⟨fb, b1, b2, b3, b4⟩ := hfb
  obtain ⟨u0, n0, hu0, hn0⟩ := hnm 0 (by omega)
  obtain ⟨uf, nf, huf, hnf⟩ := hnm p.nLegs le_rfl
  obtain ⟨_, _, _, _, L0, v0, -, -, -, -, hL0, hv0, -⟩ := hcost.launch_eq
  obtain ⟨_, _, _, _, Lf, vf, -, -, -, -, hLf, hvf, -⟩ := hcost.arrival_eq
  have hlast : ∀ {α : Type} (l : List α) a n, l.length = n + 1 → l[n]? = some a → lastOf l = .ok a := by
    intro α l a n hl ha
    unfold lastOf
    rw [if_neg (by omega), hl]
    exact Mga.idx_ok.2 ha
  have ep0 := hepk 0 (by omega)
  have epf := hepk p.nLegs le_rfl
  rw [List.take_zero, List.sum_nil, add_zero] at ep0
  rw [show tofs.take p.nLegs = tofs by rw [← htl]; exact List.take_length] at epf
  have hlaunch : d.launch = max 0 (d.launchTot - p.vinf) := by
    unfold Mga.fly at hfly
    simp only [Mga.run_bind_some, Mga.run_lift_some, Mga.run_pure_some, Mga.idx_ok] at hfly
    obtain ⟨rv, _, lps, _, fb, _, s, _, l0, _, vs, _, f, _, lf, _, vf, _, h10⟩ := hfly
    split_ifs at h10 <;> simp only [Mga.run_bind_some, Mga.run_lift_some, Mga.run_num_some, Mga.run_pure_some, Mga.idx_ok] at h10
    · obtain ⟨u, -, mu, -, arr, -, rfl⟩ := h10
      rfl
    · obtain ⟨arr, -, rfl⟩ := h10
      rfl
  refine ⟨d, ⟨names, n0, x0, some v0, d.launchTot, d.launch, fb, nf, x0 + tofs.sum, some vf, d.arrival, d.T,
    d.launch + d.flyby.sum + d.arrival⟩, hd', ?_, ?_, ?_, hx0, by rw [hT], by rw [hT]; exact htl, hlaunch, ?_, b2, ?_, ⟨u0, hu0, hn0⟩,
    ⟨uf, huf, hnf⟩⟩
  · unfold prettyMga
    simp only [Mga.run_bind_some, Mga.run_lift_some, Mga.run_pure_some, Mga.idx_ok]
    exact ⟨d, hd', names, hn1, u0, hu0, n0, hn0, x0, ep0, L0, hL0, _, hv0, fb, b1, uf, hlast _ _ _ hseq huf, nf, hnf, _,
      hlast _ _ _ G.ep_len epf, Lf, hlast _ _ _ (by rw [G.legs_len]; omega) hLf, _, hvf, rfl⟩
  · rw [hf]
    split_ifs <;> rfl
  · rw [b3]
  · rw [b3]; exact hcost
  · intro i b hb
    obtain ⟨u, c1, c2, c3⟩ := b4 i b hb
    have hi : i < p.nLegs - 1 := by rw [← b2]; exact (List.getElem?_eq_some_iff.1 hb).1
    refine ⟨u, c1, c2, ?_, c3⟩
    rw [hepk (i + 1) (by omega)] at c3
    rw [hT]
    simpa using c3.symm

/-! ## Examples -/

theorem drawLeg_returns (φ : RV ℝ → ℝ → Option (RV ℝ)) (l : Leg ℝ) (units : ℝ) : ∃ pic, drawLeg φ l units false false = .ok pic := ⟨_, rfl⟩

/-- A plot in which a dot is away from the end of the leg: two points in free space, in units of one metre. -/
theorem C87_dot_away (φ : RV ℝ → ℝ → Option (RV ℝ)) : Direct.P2P.exP.Ok ∧
    Direct.P2P.InBounds Direct.P2P.exP.bounds [1, 1, 0, 0, 0, 1, 0, 1] ∧
    ∃ pic, plotP2P φ Direct.P2P.exP [1, 1, 0, 0, 0, 1, 0, 1] 1 false false = .ok pic ∧ pic.leg.fwd.head? ≠ some pic.start ∧
      pic.leg.bck.head? ≠ some pic.goal := by
  refine ⟨Direct.P2P.exP_ok, Direct.P2P.C55_example.1, ?_⟩
  have hl := Direct.P2P.setLeg_eq (x := [1, 1, 0, 0, 0, 1, 0, 1]) Direct.P2P.exP_ok (by simp [Direct.P2P.exP]) (by simp)
  obtain ⟨leg, hleg⟩ := drawLeg_returns φ (Direct.P2P.exP.legOf [1, 1, 0, 0, 0, 1, 0, 1]) 1
  have h : ∃ pic, plotP2P φ Direct.P2P.exP [1, 1, 0, 0, 0, 1, 0, 1] 1 false false = .ok pic := by
    unfold plotP2P
    rw [hl, Res.ok_bind, hleg]
    exact ⟨_, rfl⟩
  obtain ⟨pic, h⟩ := h
  obtain ⟨h1, h2⟩ := C87_point2point_partial one_ne_zero h
  have hAU : (1 : ℝ) ≠ AU := by unfold AU; norm_num
  refine ⟨pic, h, fun e => ?_, fun e => ?_⟩
  · rcases h1.1 e with h | h
    · exact hAU h
    · norm_num [Direct.P2P.exP] at h
  · rcases h2.1 e with h | h
    · exact hAU h
    · norm_num [Direct.P2P.exP] at h

/-- The hypotheses of `C87_pl2pl_partial` and `C87_pl2pl_pretty` are met; in units of one metre the planets are drawn away from
the ends of the leg. -/
theorem C87_planets_away (φ : RV ℝ → ℝ → Option (RV ℝ)) (o : List (V3 (Option ℝ))) : Direct.Pl2Pl.exP.Ok ∧
    Direct.P2P.InBounds Direct.Pl2Pl.exP.bounds [4, 1, 1, 2, 3, 4, 5, 6, 1, 0, 0, 0, 1, 0, 1] ∧
    (∃ q, prettyPl2Pl Direct.Pl2Pl.exP [4, 1, 1, 2, 3, 4, 5, 6, 1, 0, 0, 0, 1, 0, 1] = .ok q) ∧
    ∃ pic, plotPl2Pl φ (fun _ => .ok o) (fun _ => .ok o) Direct.Pl2Pl.exP [4, 1, 1, 2, 3, 4, 5, 6, 1, 0, 0, 0, 1, 0, 1] 1 false false = .ok pic ∧
      pic.leg.fwd.head? ≠ some pic.planetS ∧ pic.leg.bck.head? ≠ some pic.planetF := by
  refine ⟨Direct.Pl2Pl.C56_example.1, Direct.Pl2Pl.C56_example.2.1, ?_⟩
  have hl := Direct.Pl2Pl.setLeg_eq (x := [4, 1, 1, 2, 3, 4, 5, 6, 1, 0, 0, 0, 1, 0, 1]) Direct.Pl2Pl.C56_example.1
    (by simp [Direct.Pl2Pl.exP, Direct.Pl2Pl.init]) (by simp)
    (s := ⟨⟨1 + 86400 * 4, 0, 0⟩, ⟨1, 0, 0⟩⟩) (f := ⟨⟨0, 86400 * (4 + 1), 0⟩, ⟨0, 1, 0⟩⟩) rfl rfl
  constructor
  · unfold prettyPl2Pl
    rw [hl]
    exact ⟨_, rfl⟩
  obtain ⟨leg, hleg⟩ := drawLeg_returns φ (Direct.Pl2Pl.exP.legOf ⟨⟨1 + 86400 * 4, 0, 0⟩, ⟨1, 0, 0⟩⟩ ⟨⟨0, 86400 * (4 + 1), 0⟩, ⟨0, 1, 0⟩⟩
    [4, 1, 1, 2, 3, 4, 5, 6, 1, 0, 0, 0, 1, 0, 1]) 1
  have h : ∃ pic, plotPl2Pl φ (fun _ => .ok o) (fun _ => .ok o) Direct.Pl2Pl.exP [4, 1, 1, 2, 3, 4, 5, 6, 1, 0, 0, 0, 1, 0, 1] 1 false
      false = .ok pic := by
    unfold plotPl2Pl
    rw [hl]
    exact ⟨_, rfl⟩
  obtain ⟨pic, h⟩ := h
  obtain ⟨x0, t, s, f, h1, h2, h3, h4, -, -, h5, h6⟩ := C87_pl2pl_partial one_ne_zero h
  have hAU : (1 : ℝ) ≠ AU := by unfold AU; norm_num
  cases h1
  cases h2
  cases h3
  cases h4
  refine ⟨pic, h, fun e => ?_, fun e => ?_⟩
  · rcases h5.1 e with h | h
    · exact hAU h
    · have := congrArg V3.x h
      norm_num at this
  · rcases h6.1 e with h | h
    · exact hAU h
    · have := congrArg V3.y h
      norm_num at this

theorem still_orbit (r : V3 ℝ) {units : ℝ} (hu : units ≠ 0) (N : ℕ) : ∃ o, addPlanetOrbit (.ok []) (Mga.still r) none units N = .ok o := by
  unfold addPlanetOrbit
  have hp : ∃ T, Planet.period (Mga.still r) 0 = .ok T := ⟨_, rfl⟩
  obtain ⟨T, hT⟩ := hp
  dsimp only
  rw [hT, Res.ok_bind]
  cases T with
  | none => exact ⟨_, rfl⟩
  | some T => exact ⟨_, orbitPoints_ok (u := Mga.still r) rfl hu (x := fun _ => spread (some ⟨r, ⟨0, 0, 0⟩⟩)) fun i hi => rfl⟩

/-- The hypotheses of `C87_mga` and `C87_mga_pretty` are met by a transfer between two planets, the leg being chosen from the
end. -/
theorem C87_example (j : ℕ → Lambert.Junk) : ∃ T d f, (Mga.computeDvs j Mga.exMga [7, T]).run = .ok (some d) ∧
    (Mga.fitness j Mga.exMga [7, T]).run = .ok (some f) ∧ [7, T].length = Mga.exMga.dim ∧
    (∀ (i : ℕ) L, d.legs[i]? = some L → ∃ v w, L.v0[0]? = some (some v) ∧ Lambert.Transfer L.r0 L.r1 L.tof L.mu false 0 v w) ∧
    (∀ u ∈ Mga.exMga.seq, ∃ o, addPlanetOrbit (.ok []) u none AU 60 = .ok o) ∧
    (∀ k ∈ [(-1 : ℤ)], -(Mga.exMga.nLegs : ℤ) ≤ k ∧ k < Mga.exMga.nLegs) ∧
    (∀ u ∈ Mga.exMga.seq, ∃ n, Planet.getName u = .ok n) := by
  obtain ⟨T, L, v, w, h1, -, h2⟩ := Mga.exMga_flies j
  have hf : ∃ f, (Mga.fitness j Mga.exMga [7, T]).run = .ok (some f) := by
    unfold Mga.fitness
    simp only [Mga.run_bind_some]
    exact ⟨_, _, h1, rfl⟩
  obtain ⟨f, hf⟩ := hf
  refine ⟨T, _, f, h1, hf, rfl, ?_, ?_, ?_, ?_⟩
  · intro i L' hL'
    cases i with
    | zero =>
      simp only [List.getElem?_cons_zero, Option.some.injEq] at hL'
      subst hL'
      exact ⟨v, w, h2.1, h2.2.1⟩
    | succ i => simp at hL'
  · intro u hu
    simp only [Mga.exMga, List.mem_cons, List.not_mem_nil, or_false] at hu
    rcases hu with rfl | rfl <;> exact still_orbit _ AU_ne _
  · simp [Mga.exMga, Mga.Mga.nLegs]
  · intro u hu
    simp only [Mga.exMga, List.mem_cons, List.not_mem_nil, or_false] at hu
    rcases hu with rfl | rfl <;> exact ⟨_, rfl⟩

end Kep3.Plot
