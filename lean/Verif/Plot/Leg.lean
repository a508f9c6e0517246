import Verif.Plot.Lambert
import Verif.SF.Props43
import Verif.HF.History
import Verif.Lagr.Props21

/-!
# C74: plots of ballistic arcs, of legs and of the solar system

`add_ballistic_arc`, `add_sf_leg`, `add_sf_hf_leg` and `add_solar_system`: the points and arrows given to matplotlib, before
the division by the units. Exact real arithmetic.
-/

namespace Kep3
open Real V3

namespace Plot

/-! ## Ballistic arcs -/

/-- The loop of `add_ballistic_arc`, pykep/plot/_ballistic.py:41-45: the points are stored before each propagation; one more
propagation follows the last point. A NaN state stays NaN. -/
noncomputable def arcLoop (sv : Solver) (mu dt : ℝ) : ℕ → Option (RV ℝ) → Res (List (Option (V3 ℝ)))
  | 0, _ => .ok []
  | n + 1, x => do
    let y ← match x with
      | some x => propagateLagrangian sv x dt mu
      | none => Res.ok none
    let r ← arcLoop sv mu dt n y
    return x.map RV.r :: r

/-- `add_ballistic_arc`, pykep/plot/_ballistic.py:4-49, for `N` other than 1 (a division by zero). -/
noncomputable def addBallisticArc (sv : Solver) (rv0 : RV ℝ) (tof mu : ℝ) (N : ℕ) : Res (List (Option (V3 ℝ))) :=
  arcLoop sv mu (tof / (N - 1)) N (some rv0)

section
variable {sv : Solver} (hsv : sv.Sound) (hq : sv.Quick) {mu : ℝ} (hmu : 0 < mu) {γ : ℝ → RV ℝ} (hγ : TwoBody mu γ)
  (hh : cross (γ 0).r (γ 0).v ≠ 0) (hE : energy (γ 0) mu ≠ 0)
include hsv hq hmu hγ hh hE

theorem propagate_motion {dt : ℝ} (hr : HypRange (γ 0) mu dt) (t : ℝ) :
    propagateLagrangian sv (γ t) dt mu = .ok (some (γ (t + dt))) := by
  have e1 : energy (γ t) mu = energy (γ 0) mu := by rw [twoBody_unique hmu hγ hh t]; exact energy_stateU hmu hh _
  have e2 : angMom (γ t) = angMom (γ 0) := twoBody_angMom hmu hγ t
  have e3 : alphaOf (γ t) mu = alphaOf (γ 0) mu := by rw [twoBody_unique hmu hγ hh t]; exact alphaOf_stateU hmu hh _
  have hδ : TwoBody mu fun s => γ (t + s) := by
    constructor <;> intro s
    · exact (hγ.rx (t + s)).comp_const_add t s
    · exact (hγ.ry (t + s)).comp_const_add t s
    · exact (hγ.rz (t + s)).comp_const_add t s
    · exact (hγ.vx (t + s)).comp_const_add t s
    · exact (hγ.vy (t + s)).comp_const_add t s
    · exact (hγ.vz (t + s)).comp_const_add t s
  have hh' : cross (γ t).r (γ t).v ≠ 0 := by show angMom _ ≠ 0; rw [e2]; exact hh
  have hE' : energy (γ t) mu ≠ 0 := by rw [e1]; exact hE
  have hr' : HypRange (γ t) mu dt := by unfold HypRange; rw [e1, e3]; exact hr
  rcases C21_returns hsv hmu hh' hE' hr' with ⟨y, hy⟩ | ⟨-, hn⟩
  · have := C22_unique hsv hmu hδ (by simpa using hh') (by simpa using hE') (tof := dt) (by simpa using hr') (y := y)
      (by simpa using hy)
    rw [hy, this]
  · exact absurd hq hn

theorem arcLoop_motion {dt : ℝ} (hr : HypRange (γ 0) mu dt) (n : ℕ) (t : ℝ) :
    arcLoop sv mu dt n (some (γ t)) = .ok ((List.range n).map fun i : ℕ => some (γ (t + i * dt)).r) := by
  induction n generalizing t with
  | zero => rfl
  | succ n ih =>
    unfold arcLoop
    simp only [propagate_motion hsv hq hmu hγ hh hE hr t, Res.ok_bind, ih, Res.pure_eq]
    rw [List.range_succ_eq_map, List.map_cons, List.map_map]
    congr 1
    simp only [Option.map_some, Nat.cast_zero, zero_mul, add_zero, List.cons.injEq, true_and]
    apply List.map_congr_left
    intro i _
    simp only [Function.comp, Nat.cast_succ]
    congr 3
    ring

/-- C74. The points drawn for a ballistic arc are the positions of the motion at equally spaced times, the first at its start
and the last at the time of flight. -/
theorem C74_arc {tof : ℝ} {N : ℕ} (hN : 2 ≤ N) (hr : HypRange (γ 0) mu (tof / (N - 1))) :
    ∃ pts, addBallisticArc sv (γ 0) tof mu N = .ok pts ∧
      pts = ((List.range N).map fun i : ℕ => some (γ (i / (N - 1) * tof)).r) ∧
      pts.head? = some (some (γ 0).r) ∧ pts.getLast? = some (some (γ tof).r) := by
  have hN1 : (N : ℝ) - 1 ≠ 0 := by
    have : (2 : ℝ) ≤ N := by exact_mod_cast hN
    intro h; linarith
  refine ⟨_, ?_, rfl, ?_, ?_⟩
  · unfold addBallisticArc
    rw [arcLoop_motion hsv hq hmu hγ hh hE hr N 0]
    congr 2
    funext i
    rw [zero_add, mul_div_assoc', div_mul_eq_mul_div]
  · rw [List.head?_map, List.head?_range, if_neg (by omega)]; simp
  · rw [List.getLast?_map, List.getLast?_range, if_neg (by omega), Option.map_some, Nat.cast_sub (by omega), Nat.cast_one,
      div_self hN1, one_mul]

end

/-- Hypotheses of `C74_arc`: half a circle. -/
example {sv : Solver} (hsv : sv.Sound) (hq : sv.Quick) : ∃ pts, addBallisticArc sv (circle 1 0) π 1 60 = .ok pts ∧
    pts.getLast? = some (some ⟨-1, 0, 0⟩) := by
  have hE : energy (circle 1 0) 1 = -(1 / 2) := by
    unfold energy
    rw [circle_norm (by norm_num)]
    norm_num [circle, dot]
  obtain ⟨pts, h1, -, -, h2⟩ := C74_arc hsv hq one_pos (circle_twoBody (s := 1) (by norm_num))
    (by intro h; have := congrArg V3.z h; norm_num [circle] at this) (by rw [hE]; norm_num) (tof := π) (N := 60) (by norm_num)
    (by unfold HypRange; rw [hE]; intro h; norm_num at h)
  exact ⟨pts, h1, by rw [h2]; simp [circle]⟩

/-! ## Sims-Flanagan legs -/

section leg
open SF SFSpec

/-- What a pass of `add_sf_leg` collects: the arcs drawn (initial state and duration), the grid points, the mid-points and the
throttles; NaN is `none`. -/
structure Trail where
  s : Craft
  arcs : List (Option (RV ℝ) × ℝ)
  grid : List (Option (V3 ℝ))
  mids : List (Option (V3 ℝ))
  thr : List (V3 ℝ)

/-- The body of the loops, pykep/plot/_sf_leg.py:65-92 and 131-158, for half a segment `h` and an impulse `kick`. -/
def trailStep (φ : RV ℝ → ℝ → Option (RV ℝ)) (kick : Craft → V3 ℝ → Craft) (h : ℝ) (T : Trail) (u : V3 ℝ) : Trail :=
  let mid := craftCoast φ T.s h
  let s1 := kick mid u
  let s2 := craftCoast φ s1 h
  { s := s2, arcs := T.arcs ++ [(T.s.rv, h), (s1.rv, h)], grid := T.grid ++ [s2.rv.map RV.r],
    mids := T.mids ++ [mid.rv.map RV.r], thr := T.thr ++ [u] }

/-- The lists before the loops, pykep/plot/_sf_leg.py:57-63 and 123-129. -/
def Trail.init (s : Craft) : Trail := { s := s, arcs := [], grid := [s.rv.map RV.r], mids := [], thr := [] }

/-- Impulse forwards, pykep/plot/_sf_leg.py:69, 84 and 86. -/
noncomputable def pyFwdKick (c isp : ℝ) (s : Craft) (u : V3 ℝ) : Craft :=
  let dv := norm u * c / s.m
  ⟨s.rv.map fun x => ⟨x.r, ⟨x.v.x + u.x * c / s.m, x.v.y + u.y * c / s.m, x.v.z + u.z * c / s.m⟩⟩, s.m * exp (-dv / isp / G0)⟩

/-- Impulse backwards, pykep/plot/_sf_leg.py:135, 150 and 152. -/
noncomputable def pyBckKick (c isp : ℝ) (s : Craft) (u : V3 ℝ) : Craft :=
  let dv := norm u * c / s.m
  ⟨s.rv.map fun x => ⟨x.r, ⟨x.v.x - u.x * c / s.m, x.v.y - u.y * c / s.m, x.v.z - u.z * c / s.m⟩⟩, s.m * exp (dv / isp / G0)⟩

/-- `sf.throttles[k : k + 3]`, pykep/plot/_sf_leg.py:67 and 133; the slices are inside the list. -/
def slice3 (t : List ℝ) (k : ℕ) : V3 ℝ := ⟨t.getD k 0, t.getD (k + 1) 0, t.getD (k + 2) 0⟩

/-- The forward pass of `add_sf_leg`, pykep/plot/_sf_leg.py:49-95. -/
noncomputable def fwdTrail (φ : RV ℝ → ℝ → Option (RV ℝ)) (l : Leg ℝ) : Trail :=
  let nseg := l.throttles.length / 3
  let dt := l.tof / nseg
  let c := l.maxThrust * dt
  (List.range ⌊(nseg : ℝ) * l.cut⌋₊).foldl
    (fun T i => trailStep φ (pyFwdKick c l.isp) (dt / 2) T (slice3 l.throttles (3 * i))) (.init ⟨some l.rvs, l.ms⟩)

/-- The backward pass of `add_sf_leg`, pykep/plot/_sf_leg.py:49-54 and 122-161. -/
noncomputable def bckTrail (φ : RV ℝ → ℝ → Option (RV ℝ)) (l : Leg ℝ) : Trail :=
  let nseg := l.throttles.length / 3
  let dt := l.tof / nseg
  let c := l.maxThrust * dt
  (List.range (nseg - ⌊(nseg : ℝ) * l.cut⌋₊)).foldl
    (fun T i => trailStep φ (pyBckKick c l.isp) (-dt / 2) T (slice3 l.throttles (nseg * 3 - 3 - 3 * i)))
    (.init ⟨some l.rvf, l.mf⟩)

/-- `add_sf_leg`, pykep/plot/_sf_leg.py:6-188. Mid-points and throttles are columns of arrays (lines 102-120 and 168-186), which
have no columns if there are no segments: an `IndexError`. -/
noncomputable def addSfLeg (φ : RV ℝ → ℝ → Option (RV ℝ)) (l : Leg ℝ) (showMid showThr : Bool) : Res (Trail × Trail) := do
  let f := fwdTrail φ l
  if (showMid || showThr) && f.mids.isEmpty then Res.err .index
  let b := bckTrail φ l
  if (showMid || showThr) && b.mids.isEmpty then Res.err .index
  return (f, b)

/-! ### The passes over lists of throttles -/

theorem slice3_triples (n : ℕ) (t : List ℝ) (ht : t.length = 3 * n) (i : ℕ) (hi : i < n) :
    (triples t)[i]? = some (slice3 t (3 * i)) := by
  have h1 : i < (triples t).length := by rw [triples_length n t ht]; exact hi
  have h2 := triple_eq n t ht i _ (List.getElem?_eq_getElem h1)
  rw [List.getElem?_eq_getElem h1, Option.some.injEq]
  unfold SF.triple at h2
  rw [List.getElem?_eq_getElem (by omega), List.getElem?_eq_getElem (by omega), List.getElem?_eq_getElem (by omega)] at h2
  simp only [Res.ok.injEq] at h2
  rw [← h2]
  unfold slice3
  simp only [List.getD_eq_getElem?_getD]
  rw [List.getElem?_eq_getElem (by omega), List.getElem?_eq_getElem (by omega), List.getElem?_eq_getElem (by omega)]
  rfl

theorem foldl_range_eq {α β : Type} (f : α → β → α) (g : ℕ → β) (us : List β) (h : ∀ i (hi : i < us.length), g i = us[i])
    (a : α) : (List.range us.length).foldl (fun T i => f T (g i)) a = us.foldl f a := by
  have : us = (List.range us.length).map g := by
    apply List.ext_getElem
    · simp
    · intro i h1 h2
      simp [h i h1]
  conv_rhs => rw [this]
  rw [List.foldl_map]

section
variable (φ : RV ℝ → ℝ → Option (RV ℝ)) (kick : Craft → V3 ℝ → Craft) (h : ℝ)

/-- A segment of a pass. -/
def segOf (s : Craft) (u : V3 ℝ) : Craft := craftCoast φ (kick (craftCoast φ s h) u) h

/-- The states between the segments. -/
def stateAt (us : List (V3 ℝ)) (s : Craft) (i : ℕ) : Craft := (us.take i).foldl (segOf φ kick h) s

theorem stateAt_succ (us : List (V3 ℝ)) (s : Craft) (i : ℕ) (hi : i < us.length) :
    stateAt φ kick h us s (i + 1) = segOf φ kick h (stateAt φ kick h us s i) us[i] := by
  unfold stateAt
  rw [List.take_add_one, List.getElem?_eq_getElem hi, List.foldl_append]
  rfl

theorem trail_eq (us : List (V3 ℝ)) (s : Craft) :
    us.foldl (trailStep φ kick h) (.init s) =
      { s := stateAt φ kick h us s us.length
        arcs := us.mapIdx (fun i u => [((stateAt φ kick h us s i).rv, h),
          ((kick (craftCoast φ (stateAt φ kick h us s i) h) u).rv, h)]) |>.flatten
        grid := (List.range (us.length + 1)).map fun i => (stateAt φ kick h us s i).rv.map RV.r
        mids := (List.range us.length).map fun i => (craftCoast φ (stateAt φ kick h us s i) h).rv.map RV.r
        thr := us } := by
  induction us using List.reverseRecOn with
  | nil => rfl
  | append_singleton us u ih =>
    rw [List.foldl_append, ih]
    have hst : ∀ i, i ≤ us.length → stateAt φ kick h (us ++ [u]) s i = stateAt φ kick h us s i := by
      intro i hi
      unfold stateAt
      rw [List.take_append_of_le_length hi]
    have hlast : stateAt φ kick h (us ++ [u]) s (us.length + 1) = segOf φ kick h (stateAt φ kick h us s us.length) u := by
      rw [stateAt_succ φ kick h _ s us.length (by simp), hst _ le_rfl]
      simp
    simp only [List.foldl_cons, List.foldl_nil, trailStep, List.length_append, List.length_cons, List.length_nil, zero_add,
      Trail.mk.injEq, and_true]
    refine ⟨hlast.symm, ?_, ?_, ?_⟩
    · rw [List.mapIdx_append, List.flatten_append]
      congr 1
      · congr 1
        apply List.ext_getElem
        · simp
        · intro i h1 h2
          simp only [List.length_mapIdx] at h1
          simp [hst i h1.le]
      · simp [hst us.length le_rfl]
    · rw [List.range_succ (n := us.length + 1), List.map_append]
      congr 1
      · apply List.map_congr_left
        intro i hi
        rw [hst i (by have := List.mem_range.1 hi; omega)]
      · simp only [List.map_cons, List.map_nil, hlast]; rfl
    · rw [List.range_succ (n := us.length), List.map_append]
      congr 1
      · apply List.map_congr_left
        intro i hi
        rw [hst i (List.mem_range.1 hi).le]
      · simp [hst us.length le_rfl]

end

theorem pyFwdKick_eq {c isp : ℝ} (hc : 0 ≤ c) {s : Craft} (hm : 0 < s.m) (u : V3 ℝ) :
    pyFwdKick c isp s u = fwdKick c (isp * G0) s u := by
  have hn : √(c / s.m * u.x * (c / s.m * u.x) + c / s.m * u.y * (c / s.m * u.y) + c / s.m * u.z * (c / s.m * u.z))
      = c / s.m * norm u := norm_scaled (div_nonneg hc hm.le) u
  unfold pyFwdKick fwdKick
  simp only
  rw [hn]
  congr 1
  · congr 1; funext x; congr 2 <;> ring
  · rw [div_div]; congr 3; ring

theorem pyBckKick_eq {c isp : ℝ} (hc : 0 ≤ c) {s : Craft} (hm : 0 < s.m) (u : V3 ℝ) :
    pyBckKick c isp s u = bckKick c (isp * G0) s u := by
  have hn : √(c / s.m * u.x * (c / s.m * u.x) + c / s.m * u.y * (c / s.m * u.y) + c / s.m * u.z * (c / s.m * u.z))
      = c / s.m * norm u := norm_scaled (div_nonneg hc hm.le) u
  unfold pyBckKick bckKick
  simp only
  rw [hn]
  congr 1
  · congr 1; funext x; congr 2 <;> ring
  · rw [div_div]; congr 3; ring

/-- What a drawn pass must show: the grid points are the positions of the spacecraft between its segments, `body 0` the end of
the leg where the pass starts; each mid-point is where the impulse with the throttle of the same index acts; the arcs are the
ballistic flights before and after the impulses. For the backward pass the segments are flown towards earlier times. -/
structure Shows (φ : RV ℝ → ℝ → Option (RV ℝ)) (h c veff : ℝ) (fwd : Bool) (us : List (V3 ℝ)) (T : Trail) (body : ℕ → Body) :
    Prop where
  throttles : T.thr = us
  grid : T.grid = (List.range (us.length + 1)).map fun i => some (body i).rv.r
  mids : T.mids.length = us.length
  arcs : T.arcs.length = 2 * us.length
  seg : ∀ i (hi : i < us.length), ∃ p q : Body,
    T.arcs[2 * i]? = some (some (body i).rv, h) ∧ φ (body i).rv h = some p.rv ∧ p.m = (body i).m ∧
    T.mids[i]? = some (some p.rv.r) ∧
    (if fwd then Impulse c veff p.m us[i] p q else Impulse c veff p.m us[i] q p) ∧
    T.arcs[2 * i + 1]? = some (some q.rv, h) ∧ φ q.rv h = some (body (i + 1)).rv ∧ (body (i + 1)).m = q.m

theorem flatten_pairs {α β : Type} (f : ℕ → α → List β) (hf : ∀ i a, (f i a).length = 2) (us : List α) :
    (us.mapIdx f).flatten.length = 2 * us.length ∧ ∀ i (hi : i < us.length), ∀ k < 2,
      (us.mapIdx f).flatten[2 * i + k]? = (f i us[i])[k]? := by
  induction us using List.reverseRecOn with
  | nil => simp
  | append_singleton us u ih =>
    rw [List.mapIdx_append, List.flatten_append]
    refine ⟨by simp [ih.1, hf]; omega, fun i hi k hk => ?_⟩
    by_cases h : i < us.length
    · rw [List.getElem?_append_left (by rw [ih.1]; omega), ih.2 i h k hk]
      simp [h]
    · have : i = us.length := by simp at hi; omega
      subst this
      rw [List.getElem?_append_right (by rw [ih.1]; omega), ih.1]
      simp

/-- A pass that ends in a finite state shows the flight. -/
theorem shows_pass {φ : RV ℝ → ℝ → Option (RV ℝ)} {kick py : Craft → V3 ℝ → Craft} {h c veff : ℝ} {fwd : Bool} {x0 : RV ℝ}
    {m0 : ℝ} (hm0 : 0 < m0) (us : List (V3 ℝ))
    (hkm : ∀ s u, 0 < s.m → 0 < (kick s u).m)
    (hpy : ∀ s u, 0 < s.m → py s u = kick s u)
    (hks : ∀ s u, (kick s u).rv.isSome → s.rv.isSome)
    (himp : ∀ (p q : Body) (u : V3 ℝ), 0 < p.m → kick (toCraft p) u = toCraft q →
      if fwd then Impulse c veff p.m u p q else Impulse c veff p.m u q p)
    (hfin : (us.foldl (segOf φ kick h) ⟨some x0, m0⟩).rv.isSome) :
    ∃ body : ℕ → Body, body 0 = ⟨x0, m0⟩ ∧ toCraft (body us.length) = us.foldl (segOf φ kick h) ⟨some x0, m0⟩ ∧
      Shows φ h c veff fwd us (us.foldl (trailStep φ py h) (.init ⟨some x0, m0⟩)) body := by
  set s0 : Craft := ⟨some x0, m0⟩ with hs0
  have hmass : ∀ i, 0 < (stateAt φ kick h us s0 i).m := by
    intro i
    unfold stateAt
    generalize us.take i = vs
    have : ∀ s : Craft, 0 < s.m → 0 < (vs.foldl (segOf φ kick h) s).m := by
      induction vs with
      | nil => exact fun s hs => hs
      | cons v vs ih => exact fun s hs => ih _ (hkm _ v hs)
    exact this _ hm0
  have hpyst : ∀ i, i ≤ us.length → stateAt φ py h us s0 i = stateAt φ kick h us s0 i := by
    intro i
    induction i with
    | zero => intro _; rfl
    | succ i ih =>
      intro hi
      rw [stateAt_succ _ _ _ _ _ i hi, stateAt_succ _ _ _ _ _ i hi, ih (by omega)]
      unfold segOf
      rw [hpy (craftCoast φ (stateAt φ kick h us s0 i) h) _ (hmass i)]
  have hsome : ∀ k, k ≤ us.length → (stateAt φ kick h us s0 (us.length - k)).rv.isSome := by
    intro k
    induction k with
    | zero => intro _; unfold stateAt; simpa using hfin
    | succ k ih =>
      intro hk
      have h1 := ih (by omega)
      rw [show us.length - k = us.length - (k + 1) + 1 by omega,
        stateAt_succ _ _ _ _ _ _ (by omega)] at h1
      unfold segOf at h1
      have hco : ∀ (s : Craft) (t : ℝ), (craftCoast φ s t).rv.isSome → s.rv.isSome := by
        intro s t hs
        cases hv : s.rv with
        | some _ => rfl
        | none => simp [craftCoast, hv] at hs
      exact hco _ _ (hks _ _ (hco _ _ h1))
  have hbody : ∀ i, ∃ b : Body, i ≤ us.length → stateAt φ kick h us s0 i = toCraft b := by
    intro i
    by_cases hi : i ≤ us.length
    · have := hsome (us.length - i) (by omega)
      rw [show us.length - (us.length - i) = i by omega] at this
      obtain ⟨b, hb⟩ := isSome_toCraft this
      exact ⟨b, fun _ => hb⟩
    · exact ⟨⟨x0, m0⟩, fun h => absurd h hi⟩
  choose body hb using hbody
  refine ⟨body, toCraft_inj ?_, ?_, ?_⟩
  · rw [← hb 0 (by omega)]; rfl
  · rw [← hb _ le_rfl]; unfold stateAt; simp
  · rw [trail_eq]
    have hfp := flatten_pairs (fun i u => [((stateAt φ py h us s0 i).rv, h),
          ((py (craftCoast φ (stateAt φ py h us s0 i) h) u).rv, h)]) (fun _ _ => rfl) us
    refine ⟨rfl, ?_, by simp, hfp.1, ?_⟩
    · apply List.map_congr_left
      intro i hi
      have hi' : i ≤ us.length := by have := List.mem_range.1 hi; omega
      rw [hpyst i hi', hb i hi']; rfl
    · intro i hi
      have e1 := hb i hi.le
      have e2 := hb (i + 1) hi
      rw [stateAt_succ _ _ _ _ _ i hi, e1] at e2
      unfold segOf at e2
      obtain ⟨q, hq, hq1, hq2⟩ := coast_some e2
      obtain ⟨p, hp⟩ := kick_some hks hq
      obtain ⟨a, ha, hp1, hp2⟩ := coast_some hp
      have ha' := toCraft_inj ha
      subst ha'
      have hpm : 0 < p.m := by
        rw [hp2]; have := hmass i; rw [e1] at this; exact this
      rw [hp] at hq
      refine ⟨p, q, ?_, hp1, hp2, ?_, himp p q _ hpm hq, ?_, hq1, hq2⟩
      · have := hfp.2 i hi 0 (by omega)
        rw [add_zero] at this
        simp only [this, hpyst i hi.le, e1]
        rfl
      · simp only [List.getElem?_map, List.getElem?_range hi, Option.map_some, hpyst i hi.le, e1, hp]
        rfl
      · have := hfp.2 i hi 1 (by omega)
        simp only [this, hpyst i hi.le, e1, hp]
        rw [hpy (toCraft p) _ hpm, hq]
        rfl

theorem fwdKick_some {c veff : ℝ} (s : Craft) (u : V3 ℝ) (h : (fwdKick c veff s u).rv.isSome) : s.rv.isSome := by
  unfold fwdKick at h; simpa using h

theorem bckKick_some {c veff : ℝ} (s : Craft) (u : V3 ℝ) (h : (bckKick c veff s u).rv.isSome) : s.rv.isSome := by
  unfold bckKick at h; simpa using h

/-- C74. The plot of a Sims-Flanagan leg shows the flight whose mismatch is computed: both passes show the spacecraft flying the
leg's segments from its ends to the match point, and the gap between their last points is the mismatch. -/
theorem C74_leg {φ : RV ℝ → ℝ → Option (RV ℝ)} (hφ : LocalFlow φ) (l : Leg ℝ) (hn : 0 < l.nseg)
    (ht : l.throttles.length = 3 * l.nseg) (hf : l.nsegFwd = ⌊(l.nseg : ℝ) * l.cut⌋₊) (hs : l.nsegFwd + l.nsegBck = l.nseg)
    (htof : 0 ≤ l.tof) (hT : 0 ≤ l.maxThrust) (hisp : 0 < l.isp) (hms : 0 < l.ms) (hmf : 0 < l.mf) {d : RV ℝ} {dm : ℝ}
    (hd : computeMismatch φ l = .ok (some d, dm)) {showMid showThr : Bool}
    (hshow : showMid || showThr → 0 < l.nsegFwd ∧ 0 < l.nsegBck) :
    ∃ F B : Trail, addSfLeg φ l showMid showThr = .ok (F, B) ∧ ∃ f b : ℕ → Body,
      f 0 = ⟨l.rvs, l.ms⟩ ∧ b 0 = ⟨l.rvf, l.mf⟩ ∧
      Shows φ (l.tof / l.nseg / 2) (l.maxThrust * (l.tof / l.nseg)) (l.isp * G0) true ((triples l.throttles).take l.nsegFwd) F f ∧
      Shows φ (-(l.tof / l.nseg) / 2) (l.maxThrust * (l.tof / l.nseg)) (l.isp * G0) false
        ((triples l.throttles).drop l.nsegFwd).reverse B b ∧
      d.r = (f l.nsegFwd).rv.r - (b l.nsegBck).rv.r ∧ d.v = (f l.nsegFwd).rv.v - (b l.nsegBck).rv.v ∧
      dm = (f l.nsegFwd).m - (b l.nsegBck).m := by
  have hdiv : l.throttles.length / 3 = l.nseg := by omega
  set dt := l.tof / l.nseg with hdt
  have hc : 0 ≤ l.maxThrust * dt := mul_nonneg hT (div_nonneg htof (Nat.cast_nonneg _))
  have hv : 0 < l.isp * G0 := mul_pos hisp G0_pos
  have hL := triples_length l.nseg l.throttles ht
  have lf : ((triples l.throttles).take l.nsegFwd).length = l.nsegFwd := by rw [List.length_take, hL]; omega
  have lb : ((triples l.throttles).drop l.nsegFwd).reverse.length = l.nsegBck := by
    rw [List.length_reverse, List.length_drop, hL]; omega
  -- the passes of the plot, over lists
  have eF : fwdTrail φ l = ((triples l.throttles).take l.nsegFwd).foldl
      (trailStep φ (pyFwdKick (l.maxThrust * dt) l.isp) (dt / 2)) (.init ⟨some l.rvs, l.ms⟩) := by
    unfold fwdTrail
    simp only [hdiv, ← hf, ← hdt]
    conv_lhs => rw [← lf]
    apply foldl_range_eq
    intro i hi
    rw [lf] at hi
    have := slice3_triples l.nseg l.throttles ht i (by omega)
    rw [List.getElem?_eq_some_iff] at this
    obtain ⟨h1, h2⟩ := this
    rw [List.getElem_take]; exact h2.symm
  have eB : bckTrail φ l = ((triples l.throttles).drop l.nsegFwd).reverse.foldl
      (trailStep φ (pyBckKick (l.maxThrust * dt) l.isp) (-dt / 2)) (.init ⟨some l.rvf, l.mf⟩) := by
    unfold bckTrail
    simp only [hdiv, ← hf, ← hdt]
    rw [show l.nseg - l.nsegFwd = ((triples l.throttles).drop l.nsegFwd).reverse.length by rw [lb]; omega]
    apply foldl_range_eq
    intro i hi
    rw [lb] at hi
    have := slice3_triples l.nseg l.throttles ht (l.nseg - 1 - i) (by omega)
    rw [List.getElem?_eq_some_iff] at this
    obtain ⟨h1, h2⟩ := this
    rw [List.getElem_reverse, List.getElem_drop]
    rw [show l.nseg * 3 - 3 - 3 * i = 3 * (l.nseg - 1 - i) by omega, ← h2]
    congr 1
    rw [List.length_drop, hL]; omega
  -- the passes of the leg
  have hd' := hd
  unfold computeMismatch at hd'
  simp only [← hdt] at hd'
  rw [fwdPass_eq _ _ _ l.nseg l.nsegFwd dt ht (by omega), bckPass_eq _ _ _ l.nseg l.nsegBck dt ht (by omega)] at hd'
  simp only [Res.ok_bind, Res.pure_eq, Res.ok.injEq, Prod.mk.injEq] at hd'
  rw [pass_foldl (fun s => coast_split hφ dt s), pass_foldl (fun s => coast_split hφ (-dt) s),
    show l.nseg - l.nsegBck = l.nsegFwd by omega] at hd'
  have sF : seg (fwdMachine φ (l.maxThrust * dt) (l.isp * G0)) dt = segOf φ (fwdKick (l.maxThrust * dt) (l.isp * G0)) (dt / 2) :=
    rfl
  have sB : seg (bckMachine φ (l.maxThrust * dt) (l.isp * G0)) (-dt) =
      segOf φ (bckKick (l.maxThrust * dt) (l.isp * G0)) (-dt / 2) := rfl
  rw [sF, sB] at hd'
  obtain ⟨d1, d2⟩ := hd'
  rw [Option.bind_eq_some_iff] at d1
  obtain ⟨x, x1, x2⟩ := d1
  rw [Option.map_eq_some_iff] at x2
  obtain ⟨y, y1, y2⟩ := x2
  obtain ⟨f, f0, f1, f2⟩ := shows_pass (φ := φ) (h := dt / 2) (c := l.maxThrust * dt) (veff := l.isp * G0) (fwd := true)
    (kick := fwdKick (l.maxThrust * dt) (l.isp * G0)) (py := pyFwdKick (l.maxThrust * dt) l.isp) hms
    ((triples l.throttles).take l.nsegFwd) (fun s u hm => mul_pos hm (exp_pos _)) (fun s u hm => pyFwdKick_eq hc hm u)
    fwdKick_some (fun p q u hp hk => by rw [if_pos rfl]; exact (impulse_fwd hc hv hp u).2 hk)
    (Option.isSome_iff_exists.2 ⟨x, x1⟩)
  obtain ⟨b, b0, b1, b2⟩ := shows_pass (φ := φ) (h := -dt / 2) (c := l.maxThrust * dt) (veff := l.isp * G0) (fwd := false)
    (kick := bckKick (l.maxThrust * dt) (l.isp * G0)) (py := pyBckKick (l.maxThrust * dt) l.isp) hmf
    ((triples l.throttles).drop l.nsegFwd).reverse (fun s u hm => mul_pos hm (exp_pos _)) (fun s u hm => pyBckKick_eq hc hm u)
    bckKick_some (fun p q u hp hk => by rw [if_neg (by decide)]; exact (impulse_bck hc hv hp u).2 hk)
    (Option.isSome_iff_exists.2 ⟨y, y1⟩)
  rw [lf] at f1
  rw [lb] at b1
  rw [← f1] at x1 d2
  rw [← b1] at y1 d2
  have x1' : (f l.nsegFwd).rv = x := Option.some.inj x1
  have y1' : (b l.nsegBck).rv = y := Option.some.inj y1
  rw [← eF] at f2
  rw [← eB] at b2
  refine ⟨fwdTrail φ l, bckTrail φ l, ?_, f, b, f0, b0, f2, b2, ?_, ?_, d2.symm⟩
  · unfold addSfLeg
    have h1 : ((showMid || showThr) && (fwdTrail φ l).mids.isEmpty) = false := by
      cases hst : (showMid || showThr) with
      | false => rfl
      | true =>
        have h1 := f2.mids
        rw [lf] at h1
        have h2 := (hshow hst).1
        cases hm : (fwdTrail φ l).mids with
        | nil => rw [hm] at h1; simp at h1; omega
        | cons _ _ => rfl
    have h2 : ((showMid || showThr) && (bckTrail φ l).mids.isEmpty) = false := by
      cases hst : (showMid || showThr) with
      | false => rfl
      | true =>
        have h1 := b2.mids
        rw [lb] at h1
        have h2 := (hshow hst).2
        cases hm : (bckTrail φ l).mids with
        | nil => rw [hm] at h1; simp at h1; omega
        | cons _ _ => rfl
    simp only [h1, h2]
    rfl
  · rw [x1', y1', ← y2]; rfl
  · rw [x1', y1', ← y2]; rfl

/-- C74, negation. Mid-points or throttles of a leg whose match point is at one of its ends cannot be drawn. -/
theorem C74_no_midpoints (φ : RV ℝ → ℝ → Option (RV ℝ)) (l : Leg ℝ) (ht : l.throttles.length = 3 * l.nseg)
    (hcut : l.cut = 0 ∨ l.cut = 1) {showMid showThr : Bool} (hshow : showMid || showThr) :
    addSfLeg φ l showMid showThr = .err .index := by
  have hdiv : l.throttles.length / 3 = l.nseg := by omega
  unfold addSfLeg
  rw [hshow]
  simp only [Bool.true_and]
  rcases hcut with h | h
  · have : (fwdTrail φ l).mids = [] := by
      unfold fwdTrail; simp only [hdiv, h, mul_zero, Nat.floor_zero, List.range_zero, List.foldl_nil]; rfl
    rw [this]; rfl
  · have h1 : (bckTrail φ l).mids = [] := by
      unfold bckTrail
      simp only [hdiv, h, mul_one, Nat.floor_natCast, Nat.sub_self, List.range_zero, List.foldl_nil]; rfl
    rw [h1]
    cases (fwdTrail φ l).mids.isEmpty <;> rfl

/-- Hypotheses of `C74_leg`: inertial motion, one segment on either side. -/
example : ∃ F B : Trail, addSfLeg (fun x t => some ⟨x.r + t • x.v, x.v⟩)
      ⟨⟨⟨1, 0, 0⟩, ⟨0, 1, 0⟩⟩, 1, [1, 0, 0, 0, 1, 0], ⟨⟨1, 1, 0⟩, ⟨0, 1, 0⟩⟩, 1 / 2, 2, 1, 1, 1, 1 / 2, 2, 1, 1⟩ true true = .ok (F, B) ∧
    F.grid[0]? = some (some ⟨1, 0, 0⟩) ∧ B.thr = [⟨0, 1, 0⟩] := by
  set l : Leg ℝ :=
    ⟨⟨⟨1, 0, 0⟩, ⟨0, 1, 0⟩⟩, 1, [1, 0, 0, 0, 1, 0], ⟨⟨1, 1, 0⟩, ⟨0, 1, 0⟩⟩, 1 / 2, 2, 1, 1, 1, 1 / 2, 2, 1, 1⟩ with hl
  obtain ⟨d, dm, hd⟩ : ∃ d dm, computeMismatch (fun x t => some ⟨x.r + t • x.v, x.v⟩) l = .ok (some d, dm) := by
    unfold computeMismatch
    simp only
    rw [fwdPass_eq _ _ _ 2 1 _ rfl (by norm_num), bckPass_eq _ _ _ 2 1 _ rfl (by norm_num)]
    exact ⟨_, _, rfl⟩
  obtain ⟨F, B, h1, f, b, f0, b0, h2, h3, -⟩ := C74_leg inertial_flow l (by norm_num [hl]) rfl (by norm_num [hl]) rfl
    (by norm_num [hl]) (by norm_num [hl]) (by norm_num [hl]) (by norm_num [hl]) (by norm_num [hl]) hd (showMid := true)
    (showThr := true) (fun _ => ⟨by norm_num [hl], by norm_num [hl]⟩)
  refine ⟨F, B, h1, ?_, ?_⟩
  · rw [h2.grid]; simp [f0, hl]
  · rw [h3.throttles]; rfl

end leg

/-! ## High-fidelity legs -/

section hf
open HF

/-- The arrows drawn by `add_sf_hf_leg` with `show_throttles`, pykep/plot/_sf_leg.py:231-345: for each segment drawn the states at
whose positions arrows start, and the throttle they all show; forward segments, then backward ones. `raw` is the state history. -/
noncomputable def hfArrows {σ : Type} (throttles : List ℝ) (cut : ℝ) (raw : List σ) : Res (List (σ × V3 ℝ) × List (σ × V3 ℝ)) := do
  let nseg := throttles.length / 3
  let nfwd := ⌊(nseg : ℝ) * cut⌋₊
  let nbck := nseg - nfwd
  let f ← (List.range nfwd).mapM fun i => do
    let x ← pyIndex raw (i : ℕ)
    Res.ok (x, slice3 throttles (i * 3))
  let tb := (throttles.drop (nfwd * 3)).take (nseg * 3 - nfwd * 3)
  let b ← (List.range nbck).mapM fun i => do
    let x ← pyIndex raw ((nseg - i - 1 : ℕ) : ℤ)
    Res.ok (x, slice3 tb (i * 3))
  return (f, b)

theorem mapM_ok {α β : Type} (f : α → Res β) (g : α → β) (l : List α) (h : ∀ a ∈ l, f a = .ok (g a)) :
    l.mapM f = .ok (l.map g) := by
  induction l with
  | nil => rfl
  | cons a l ih =>
    rw [List.mapM_cons, h a (by simp), ih fun b hb => h b (by simp [hb])]
    rfl

/-- The arrows, with the state history of the leg: the forward segments have their own throttle, the `i`-th backward segment from
the end has the throttle of the `i`-th from the match point. -/
theorem hfArrows_eq {E : Env ℝ} {φ} (hE : ExactGrid E φ) (l : HF.Leg ℝ) (N : ℕ) (hn : 2 ≤ l.nseg) (hN : 2 ≤ N)
    (hfit : N * l.nseg < 2 ^ 32) (hfit3 : 3 * l.nseg < 2 ^ 32) (hsum : l.nsegFwd + l.nsegBck = l.nseg)
    (hf : l.nsegFwd = ⌊(l.nseg : ℝ) * l.cut⌋₊) (hthr : l.throttles.length = 3 * l.nseg)
    (hthu : l.thrusts.length = 3 * l.nseg) :
    ∃ raw, (stateHistory E N l).1 = .ok raw ∧ hfArrows l.throttles l.cut raw = .ok
      ((List.range l.nsegFwd).map fun i => (some (l.historySpec φ N i), slice3 l.throttles (3 * i)),
       (List.range l.nsegBck).map fun i => (some (l.historySpec φ N (l.nseg - 1 - i)), slice3 l.throttles (3 * (l.nsegFwd + i)))) := by
  refine ⟨_, C50_history_partial hE l N hn hN hfit hfit3 hsum hthu, ?_⟩
  unfold hfArrows
  have hdiv : l.throttles.length / 3 = l.nseg := by omega
  simp only [hdiv, ← hf, show l.nseg - l.nsegFwd = l.nsegBck by omega]
  rw [mapM_ok _ (fun i => (some (l.historySpec φ N i), slice3 l.throttles (3 * i)))]
  · simp only [Res.ok_bind]
    rw [mapM_ok _ (fun i => (some (l.historySpec φ N (l.nseg - 1 - i)), slice3 l.throttles (3 * (l.nsegFwd + i))))]
    · rfl
    · intro i hi
      rw [List.mem_range] at hi
      rw [pyIndex_nat (a := some (l.historySpec φ N (l.nseg - 1 - i)))
        (by rw [show l.nseg - i - 1 = l.nseg - 1 - i by omega]; simp [List.getElem?_range (show l.nseg - 1 - i < l.nseg by omega)])]
      simp only [Res.ok_bind, Res.ok.injEq, Prod.mk.injEq, true_and]
      unfold slice3
      have hg : ∀ k, k < 3 → ((l.throttles.drop (l.nsegFwd * 3)).take (l.nseg * 3 - l.nsegFwd * 3)).getD (i * 3 + k) 0 =
          l.throttles.getD (3 * (l.nsegFwd + i) + k) 0 := by
        intro k hk
        rw [List.getD_eq_getElem?_getD, List.getD_eq_getElem?_getD, List.getElem?_take_of_lt (by omega), List.getElem?_drop]
        congr 2
        omega
      have h0 := hg 0 (by omega)
      have h1 := hg 1 (by omega)
      have h2 := hg 2 (by omega)
      simp only [add_zero] at h0
      rw [h0, h1, h2]
  · intro i hi
    rw [List.mem_range] at hi
    rw [pyIndex_nat (a := some (l.historySpec φ N i)) (by simp [List.getElem?_range (show i < l.nseg by omega)])]
    simp only [Res.ok_bind, Res.ok.injEq, Prod.mk.injEq, true_and]
    rw [mul_comm]

/-- Every arrow starts at a state of the segment whose throttle it shows: the states `x` are those of some segment, flown with
the throttle `u`. -/
def RightArrow (φ : ℝ → ℝ → V3 ℝ → ℝ → St ℝ → St ℝ) (l : HF.Leg ℝ) (N i : ℕ) (a : Option (List (St ℝ)) × V3 ℝ) : Prop :=
  a = (some (l.historySpec φ N i), slice3 l.throttles (3 * i))

/-- C74. With `show_throttles` the arrows of the forward segments of a high-fidelity leg show their throttles. -/
theorem C74_hf_forward {E : Env ℝ} {φ} (hE : ExactGrid E φ) (l : HF.Leg ℝ) (N : ℕ) (hn : 2 ≤ l.nseg) (hN : 2 ≤ N)
    (hfit : N * l.nseg < 2 ^ 32) (hfit3 : 3 * l.nseg < 2 ^ 32) (hsum : l.nsegFwd + l.nsegBck = l.nseg)
    (hf : l.nsegFwd = ⌊(l.nseg : ℝ) * l.cut⌋₊) (hthr : l.throttles.length = 3 * l.nseg)
    (hthu : l.thrusts.length = 3 * l.nseg) :
    ∃ raw f b, (stateHistory E N l).1 = .ok raw ∧ hfArrows l.throttles l.cut raw = .ok (f, b) ∧ f.length = l.nsegFwd ∧
      b.length = l.nsegBck ∧ ∀ i (hi : i < f.length), RightArrow φ l N i f[i] := by
  obtain ⟨raw, h1, h2⟩ := hfArrows_eq hE l N hn hN hfit hfit3 hsum hf hthr hthu
  exact ⟨raw, _, _, h1, h2, by simp, by simp, fun i hi => by simp [RightArrow]⟩

/-- C74, negation. The arrows of the backward segments show their throttles only if these are the same read from either end. -/
theorem C74_hf_backward {E : Env ℝ} {φ} (hE : ExactGrid E φ) (l : HF.Leg ℝ) (N : ℕ) (hn : 2 ≤ l.nseg) (hN : 2 ≤ N)
    (hfit : N * l.nseg < 2 ^ 32) (hfit3 : 3 * l.nseg < 2 ^ 32) (hsum : l.nsegFwd + l.nsegBck = l.nseg)
    (hf : l.nsegFwd = ⌊(l.nseg : ℝ) * l.cut⌋₊) (hthr : l.throttles.length = 3 * l.nseg)
    (hthu : l.thrusts.length = 3 * l.nseg) :
    ∃ raw f b, (stateHistory E N l).1 = .ok raw ∧ hfArrows l.throttles l.cut raw = .ok (f, b) ∧ b.length = l.nsegBck ∧
      ((∀ i (hi : i < b.length), RightArrow φ l N (l.nseg - 1 - i) b[i]) ↔
        ∀ i, i < l.nsegBck → slice3 l.throttles (3 * (l.nsegFwd + i)) = slice3 l.throttles (3 * (l.nseg - 1 - i))) := by
  obtain ⟨raw, h1, h2⟩ := hfArrows_eq hE l N hn hN hfit hfit3 hsum hf hthr hthu
  exact ⟨raw, _, _, h1, h2, by simp, by simp [RightArrow]⟩

/-- With two backward segments of different throttles both arrows are wrong. -/
example (x y : St ℝ) (ta : Integ ℝ) :
    let l : HF.Leg ℝ := ⟨x, [1, 0, 0, 0, 1, 0], [1, 0, 0, 0, 1, 0], y, 4, 1, 1, 1, 0, 1, 2, 0, 2, ta, ta⟩
    ∃ raw f b, (stateHistory driftEnv 3 l).1 = .ok raw ∧ hfArrows l.throttles l.cut raw = .ok (f, b) ∧
      ¬ ∀ i (hi : i < b.length), RightArrow (fun _ _ _ t x => ⟨⟨x.rv.r + t • x.rv.v, x.rv.v⟩, x.m⟩) l 3 (l.nseg - 1 - i) b[i] := by
  intro l
  obtain ⟨raw, f, b, h1, h2, -, h3⟩ := C74_hf_backward driftEnv_exact l 3 le_rfl (by decide) (show 3 * 2 < 2 ^ 32 by decide)
    (show 3 * 2 < 2 ^ 32 by decide) rfl (by simp [l]) rfl rfl
  refine ⟨raw, f, b, h1, h2, fun h => ?_⟩
  have := h3.1 h 0 (by simp [l])
  have := congrArg V3.x this
  norm_num [slice3, l] at this

end hf

/-! ## The solar system -/

/-- One `if k in bodies` block of `add_solar_system`. `orbit k` and `point k` are the outcomes of the calls `planet_to_keplerian`
with `add_planet_orbit`, and `add_planet`. The point of Neptune is asked at an epoch `ep` that is not defined,
pykep/plot/_planet.py:182: a `NameError`, before the call. -/
def solarBlock (orbit point : ℕ → Res Unit) (bodies : List ℤ) (k : ℕ) : Res (List ℕ) :=
  if (k : ℤ) ∈ bodies then do
    orbit k
    if k = 8 then Res.err .name else point k
    return [k]
  else .ok []

/-- `add_solar_system`, pykep/plot/_planet.py:94-184: the planets drawn. -/
def addSolarSystem (orbit point : ℕ → Res Unit) (bodies : List ℤ) : Res (List ℕ) := do
  let l ← [1, 2, 3, 4, 5, 6, 7, 8].mapM (solarBlock orbit point bodies)
  return l.flatten

/-- C74. Without Neptune exactly the planets asked for are drawn, whenever each of them can be. -/
theorem C74_solar {orbit point : ℕ → Res Unit} {bodies : List ℤ} (h8 : 8 ∉ bodies)
    (hok : ∀ k : ℕ, 1 ≤ k → k ≤ 7 → (k : ℤ) ∈ bodies → orbit k = .ok () ∧ point k = .ok ()) :
    ∃ l, addSolarSystem orbit point bodies = .ok l ∧ l.Nodup ∧ ∀ k : ℕ, k ∈ l ↔ 1 ≤ k ∧ k ≤ 8 ∧ (k : ℤ) ∈ bodies := by
  have hb : ∀ k ∈ [1, 2, 3, 4, 5, 6, 7, 8], solarBlock orbit point bodies k = .ok (if (k : ℤ) ∈ bodies then [k] else []) := by
    intro k hk
    unfold solarBlock
    by_cases h : (k : ℤ) ∈ bodies
    · rw [if_pos h, if_pos h]
      have hk8 : k ≠ 8 := by rintro rfl; exact h8 h
      obtain ⟨h1, h2⟩ := hok k (by simp at hk; omega) (by simp at hk; omega) h
      rw [h1, if_neg hk8, h2]
      rfl
    · rw [if_neg h, if_neg h]
  refine ⟨_, by unfold addSolarSystem; rw [mapM_ok _ _ _ hb]; rfl, ?_, ?_⟩
  · have : ([1, 2, 3, 4, 5, 6, 7, 8].map fun k : ℕ => if (k : ℤ) ∈ bodies then [k] else []).flatten =
        [1, 2, 3, 4, 5, 6, 7, 8].filter fun k : ℕ => (k : ℤ) ∈ bodies := by
      generalize [1, 2, 3, 4, 5, 6, 7, 8] = l
      induction l with
      | nil => rfl
      | cons k l ih => by_cases h : (k : ℤ) ∈ bodies <;> simp [h, ih]
    rw [this]
    exact List.Nodup.filter _ (by decide)
  · intro k
    constructor
    · intro h
      rw [List.mem_flatten] at h
      obtain ⟨l, hl, hk⟩ := h
      rw [List.mem_map] at hl
      obtain ⟨j, hj, rfl⟩ := hl
      by_cases h : (j : ℤ) ∈ bodies
      · rw [if_pos h, List.mem_singleton] at hk
        subst hk
        simp at hj
        exact ⟨by omega, by omega, h⟩
      · rw [if_neg h] at hk; simp at hk
    · rintro ⟨h1, h2, h3⟩
      rw [List.mem_flatten]
      refine ⟨[k], ?_, by simp⟩
      rw [List.mem_map]
      exact ⟨k, by simp; omega, by rw [if_pos h3]⟩

/-- C74, negation. Neptune cannot be drawn: whatever else is asked for, an exception is raised. -/
theorem C74_neptune {orbit point : ℕ → Res Unit} {bodies : List ℤ} (h8 : 8 ∈ bodies) (l : List ℕ) :
    addSolarSystem orbit point bodies ≠ .ok l := by
  intro h
  unfold addSolarSystem at h
  have hbad : ∀ r, solarBlock orbit point bodies 8 ≠ .ok r := by
    intro r hr
    unfold solarBlock at hr
    rw [if_pos (by exact_mod_cast h8), if_pos rfl] at hr
    cases ho : orbit 8 <;> rw [ho] at hr <;> cases hr
  have : ∀ (ks : List ℕ), 8 ∈ ks → ∀ r, ks.mapM (solarBlock orbit point bodies) ≠ .ok r := by
    intro ks
    induction ks with
    | nil => intro h; simp at h
    | cons k ks ih =>
      intro hk r hr
      rw [List.mapM_cons] at hr
      rcases List.mem_cons.1 hk with h | h
      · subst h
        cases hs : solarBlock orbit point bodies 8 with
        | ok a => exact hbad a hs
        | err e => rw [hs] at hr; cases hr
        | ub => rw [hs] at hr; cases hr
      · cases hs : solarBlock orbit point bodies k with
        | ok a =>
          rw [hs] at hr
          simp only [Res.ok_bind] at hr
          cases hm : ks.mapM (solarBlock orbit point bodies) with
          | ok b => exact ih h b hm
          | err e => rw [hm] at hr; cases hr
          | ub => rw [hm] at hr; cases hr
        | err e => rw [hs] at hr; cases hr
        | ub => rw [hs] at hr; cases hr
  cases hm : [1, 2, 3, 4, 5, 6, 7, 8].mapM (solarBlock orbit point bodies) with
  | ok b => exact this _ (by simp) b hm
  | err e => rw [hm] at h; cases h
  | ub => rw [hm] at h; cases h

/-- Hypotheses of `C74_solar`: the default list. -/
example : addSolarSystem (fun _ => .ok ()) (fun _ => .ok ()) [1, 2, 3, 4, 5, 6] = .ok [1, 2, 3, 4, 5, 6] := by
  decide

end Plot
end Kep3
