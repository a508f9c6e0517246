import Verif.SF.Props44

/-!
# C43: the mismatch vanishes exactly on flyable legs
-/

namespace Kep3.SF

open Kep3 SFSpec

/-- One segment of a pass. -/
noncomputable def seg {S : Type} (M : Machine S) (dt : ℝ) (s : S) (u : V3 ℝ) : S :=
  M.coast (M.kick (M.coast s (dt / 2)) u) (dt / 2)

theorem pass_foldl {S : Type} {M : Machine S} {dt : ℝ}
    (hM : ∀ s, M.coast s dt = M.coast (M.coast s (dt / 2)) (dt / 2)) (us : List (V3 ℝ)) (s : S) :
    pass M dt us s = us.foldl (seg M dt) s := by
  have harcs : ∀ (us : List (V3 ℝ)) (s : S), us ≠ [] →
      arcs M dt us (M.coast s (dt / 2)) = us.foldl (seg M dt) s := by
    intro us
    induction us with
    | nil => intro s h; exact absurd rfl h
    | cons u us ih =>
      intro s _
      cases us with
      | nil => rfl
      | cons v vs =>
        rw [arcs, hM, ih _ (by simp)]
        rfl
  cases us with
  | nil => rfl
  | cons u us => exact harcs (u :: us) s (by simp)

theorem coast_split {φ : RV ℝ → ℝ → Option (RV ℝ)} (hφ : LocalFlow φ) (dt : ℝ) (s : Craft) :
    craftCoast φ s dt = craftCoast φ (craftCoast φ s (dt / 2)) (dt / 2) := by
  unfold craftCoast
  ext1
  · cases hs : s.rv with
    | none => rfl
    | some x =>
      simp only [Option.bind_some]
      apply Option.ext
      intro z
      rw [Option.bind_eq_some_iff]
      exact hφ.half x dt z
  · rfl

/-- A body as the state of a pass. -/
def toCraft (b : Body) : Craft := ⟨some b.rv, b.m⟩

theorem toCraft_inj {a b : Body} (h : toCraft a = toCraft b) : a = b := by
  unfold toCraft at h
  injection h with h1 h2
  injection h1 with h1
  cases a; cases b; simp_all

theorem norm_smul {k : ℝ} (hk : 0 ≤ k) (u : V3 ℝ) : V3.norm (k • u) = k * V3.norm u := norm_scaled hk u

theorem impulse_mass {c veff m m' : ℝ} (hv : 0 < veff) (hm : 0 < m) (hm' : 0 < m') :
    veff * Real.log (m / m') = c ↔ m' = m * Real.exp (-c / veff) := by
  constructor
  · intro h
    have : Real.log (m' / m) = -c / veff := by
      rw [← h, ← inv_div m m', Real.log_inv]; field_simp
    rw [← this, Real.exp_log (div_pos hm' hm)]; field_simp
  · intro h
    rw [h, div_mul_cancel_left₀ hm.ne', ← Real.exp_neg, Real.log_exp]; field_simp

theorem impulse_fwd {c veff : ℝ} (hc : 0 ≤ c) (hv : 0 < veff) {p q : Body} (hp : 0 < p.m) (u : V3 ℝ) :
    Impulse c veff p.m u p q ↔ fwdKick c veff (toCraft p) u = toCraft q := by
  have hk : 0 ≤ c / p.m := div_nonneg hc hp.le
  have hn : Real.sqrt (c / p.m * u.x * (c / p.m * u.x) + c / p.m * u.y * (c / p.m * u.y) +
      c / p.m * u.z * (c / p.m * u.z)) = c / p.m * V3.norm u := norm_scaled hk u
  have hdv : ∀ w : V3 ℝ, p.m • w = c • u ↔ w = (c / p.m) • u := by
    intro w
    constructor
    · intro h
      have hx := congrArg V3.x h; have hy := congrArg V3.y h; have hz := congrArg V3.z h
      simp only [V3.smul_x, V3.smul_y, V3.smul_z] at hx hy hz
      ext <;> simp only [V3.smul_x, V3.smul_y, V3.smul_z] <;> field_simp
      · linarith
      · linarith
      · linarith
    · rintro rfl
      ext <;> simp only [V3.smul_x, V3.smul_y, V3.smul_z] <;> field_simp
  constructor
  · rintro ⟨h1, h2, -, h4, h5⟩
    rw [hdv] at h2
    rw [h2, norm_smul hk, impulse_mass hv hp h4] at h5
    have hx := congrArg V3.x h2; have hy := congrArg V3.y h2; have hz := congrArg V3.z h2
    simp only [V3.smul_x, V3.smul_y, V3.smul_z, V3.sub_x, V3.sub_y, V3.sub_z] at hx hy hz
    unfold fwdKick toCraft
    simp only [Option.map_some]
    rw [hn, ← h5]
    congr 1
    congr 1
    ext
    · rw [h1]
    · rw [h1]
    · rw [h1]
    · simp only; linarith
    · simp only; linarith
    · simp only; linarith
  · intro h
    unfold fwdKick toCraft at h
    simp only [Option.map_some] at h
    rw [hn] at h
    injection h with ha hb
    injection ha with ha
    have hq : 0 < q.m := by rw [← hb]; exact mul_pos hp (Real.exp_pos _)
    have e : q.rv.v - p.rv.v = (c / p.m) • u := by
      rw [← ha]
      ext <;> simp
    refine ⟨by rw [← ha], (hdv _).2 e, hp, hq, ?_⟩
    rw [e, norm_smul hk, impulse_mass hv hp hq]
    exact hb.symm

theorem impulse_bck {c veff : ℝ} (hc : 0 ≤ c) (hv : 0 < veff) {p q : Body} (hq : 0 < q.m) (u : V3 ℝ) :
    Impulse c veff q.m u p q ↔ bckKick c veff (toCraft q) u = toCraft p := by
  have hk : 0 ≤ c / q.m := div_nonneg hc hq.le
  have hn : Real.sqrt (c / q.m * u.x * (c / q.m * u.x) + c / q.m * u.y * (c / q.m * u.y) +
      c / q.m * u.z * (c / q.m * u.z)) = c / q.m * V3.norm u := norm_scaled hk u
  have hdv : ∀ w : V3 ℝ, q.m • w = c • u ↔ w = (c / q.m) • u := by
    intro w
    constructor
    · intro h
      have hx := congrArg V3.x h; have hy := congrArg V3.y h; have hz := congrArg V3.z h
      simp only [V3.smul_x, V3.smul_y, V3.smul_z] at hx hy hz
      ext <;> simp only [V3.smul_x, V3.smul_y, V3.smul_z] <;> field_simp
      · linarith
      · linarith
      · linarith
    · rintro rfl
      ext <;> simp only [V3.smul_x, V3.smul_y, V3.smul_z] <;> field_simp
  have hlog : ∀ {m x : ℝ}, 0 < m → (veff * Real.log (m / q.m) = x ↔ m = q.m * Real.exp (x / veff)) := by
    intro m x hm
    have h1 := impulse_mass (c := -x) hv hq hm
    rw [neg_neg] at h1
    rw [← h1, ← inv_div m q.m, Real.log_inv]
    constructor <;> intro h <;> linarith
  constructor
  · rintro ⟨h1, h2, h3, -, h5⟩
    rw [hdv] at h2
    rw [h2, norm_smul hk, hlog h3] at h5
    have hx := congrArg V3.x h2; have hy := congrArg V3.y h2; have hz := congrArg V3.z h2
    simp only [V3.smul_x, V3.smul_y, V3.smul_z, V3.sub_x, V3.sub_y, V3.sub_z] at hx hy hz
    unfold bckKick toCraft
    simp only [Option.map_some]
    rw [hn, ← h5]
    congr 1
    congr 1
    ext
    · rw [h1]
    · rw [h1]
    · rw [h1]
    · simp only; linarith
    · simp only; linarith
    · simp only; linarith
  · intro h
    unfold bckKick toCraft at h
    simp only [Option.map_some] at h
    rw [hn] at h
    injection h with ha hb
    injection ha with ha
    have hp : 0 < p.m := by rw [← hb]; exact mul_pos hq (Real.exp_pos _)
    have e : q.rv.v - p.rv.v = (c / q.m) • u := by
      rw [← ha]
      ext <;> simp
    refine ⟨by rw [← ha], (hdv _).2 e, hp, hq, ?_⟩
    rw [e, norm_smul hk, hlog hp]
    exact hb.symm

theorem coast_some {φ : RV ℝ → ℝ → Option (RV ℝ)} {s : Craft} {t : ℝ} {b : Body}
    (h : craftCoast φ s t = toCraft b) : ∃ a : Body, s = toCraft a ∧ φ a.rv t = some b.rv ∧ b.m = a.m := by
  unfold craftCoast toCraft at h
  injection h with h1 h2
  rw [Option.bind_eq_some_iff] at h1
  obtain ⟨x, hx, hb⟩ := h1
  exact ⟨⟨x, s.m⟩, by unfold toCraft; ext1 <;> simp [hx], hb, h2.symm⟩

theorem coast_toCraft {φ : RV ℝ → ℝ → Option (RV ℝ)} {a : Body} {x : RV ℝ} {t : ℝ}
    (h : φ a.rv t = some x) : craftCoast φ (toCraft a) t = toCraft ⟨x, a.m⟩ := by
  unfold craftCoast toCraft
  simp [h]

theorem kick_some {k : Craft → V3 ℝ → Craft} (hk : ∀ s u, (k s u).rv.isSome → s.rv.isSome)
    {s : Craft} {u : V3 ℝ} {b : Body} (h : k s u = toCraft b) : ∃ a : Body, s = toCraft a := by
  have h1 : (k s u).rv.isSome := by rw [h]; rfl
  obtain ⟨x, hx⟩ := Option.isSome_iff_exists.1 (hk s u h1)
  exact ⟨⟨x, s.m⟩, by unfold toCraft; ext1 <;> simp [hx]⟩

theorem segment_fwd {φ : RV ℝ → ℝ → Option (RV ℝ)} {dt c veff : ℝ} (hc : 0 ≤ c) (hv : 0 < veff)
    {a b : Body} (ha : 0 < a.m) (u : V3 ℝ) :
    Segment φ dt c veff true u a b ↔ seg (fwdMachine φ c veff) dt (toCraft a) u = toCraft b := by
  show _ ↔ craftCoast φ (fwdKick c veff (craftCoast φ (toCraft a) (dt / 2)) u) (dt / 2) = toCraft b
  constructor
  · rintro ⟨p, q, h1, h2, h3, h4, h5⟩
    have hp : 0 < p.m := by rw [h2]; exact ha
    rw [if_pos rfl, impulse_fwd hc hv hp] at h3
    rw [coast_toCraft h1, show (⟨p.rv, a.m⟩ : Body) = p by rw [← h2], h3, coast_toCraft h4, ← h5]
  · intro h
    obtain ⟨q, hq, h4, h5⟩ := coast_some h
    obtain ⟨p, hp⟩ := kick_some (k := fwdKick c veff) (by intro s u; simp [fwdKick]) hq
    obtain ⟨a', ha', h1, h2⟩ := coast_some hp
    have := toCraft_inj ha'
    subst this
    rw [hp] at hq
    have hpm : 0 < p.m := by rw [h2]; exact ha
    exact ⟨p, q, h1, h2, by rw [if_pos rfl, impulse_fwd hc hv hpm]; exact hq, h4, h5⟩

theorem segment_bck {φ : RV ℝ → ℝ → Option (RV ℝ)} (hφ : LocalFlow φ) {dt c veff : ℝ} (hc : 0 ≤ c)
    (hv : 0 < veff) {a b : Body} (hb : 0 < b.m) (u : V3 ℝ) :
    Segment φ dt c veff false u a b ↔ seg (bckMachine φ c veff) (-dt) (toCraft b) u = toCraft a := by
  show _ ↔ craftCoast φ (bckKick c veff (craftCoast φ (toCraft b) (-dt / 2)) u) (-dt / 2) = toCraft a
  rw [neg_div]
  constructor
  · rintro ⟨p, q, h1, h2, h3, h4, h5⟩
    have hq : 0 < q.m := by rw [← h5]; exact hb
    rw [if_neg (by simp), impulse_bck hc hv hq] at h3
    rw [coast_toCraft (hφ.back _ _ _ h4), show (⟨q.rv, b.m⟩ : Body) = q by rw [h5], h3,
      coast_toCraft (hφ.back _ _ _ h1), h2]
  · intro h
    obtain ⟨p, hp, h1, h2⟩ := coast_some h
    obtain ⟨q, hq⟩ := kick_some (k := bckKick c veff) (by intro s u; simp [bckKick]) hp
    obtain ⟨b', hb', h4, h5⟩ := coast_some hq
    have := toCraft_inj hb'
    subst this
    rw [hq] at hp
    have hqm : 0 < q.m := by rw [h5]; exact hb
    have h1' := hφ.back _ _ _ h1
    have h4' := hφ.back _ _ _ h4
    rw [neg_neg] at h1' h4'
    exact ⟨p, q, h1', h2.symm, by rw [if_neg (by simp), impulse_bck hc hv hqm]; exact hp, h4', h5.symm⟩

theorem segment_pos {φ : RV ℝ → ℝ → Option (RV ℝ)} {dt c veff : ℝ} {k : Bool} {a b : Body} {u : V3 ℝ}
    (h : Segment φ dt c veff k u a b) : 0 < a.m ∧ 0 < b.m := by
  obtain ⟨p, q, -, h2, h3, -, h5⟩ := h
  exact ⟨by rw [← h2]; exact h3.ma, by rw [h5]; exact h3.mb⟩

theorem seg_none_fwd {φ : RV ℝ → ℝ → Option (RV ℝ)} {dt c veff : ℝ} {s : Craft} {u : V3 ℝ}
    (h : (seg (fwdMachine φ c veff) dt s u).rv.isSome) : s.rv.isSome := by
  cases hs : s.rv with
  | some x => rfl
  | none => simp [seg, fwdMachine, craftCoast, fwdKick, hs] at h

theorem seg_none_bck {φ : RV ℝ → ℝ → Option (RV ℝ)} {dt c veff : ℝ} {s : Craft} {u : V3 ℝ}
    (h : (seg (bckMachine φ c veff) dt s u).rv.isSome) : s.rv.isSome := by
  cases hs : s.rv with
  | some x => rfl
  | none => simp [seg, bckMachine, craftCoast, bckKick, hs] at h

theorem foldl_some {M : Machine Craft} {dt : ℝ}
    (hM : ∀ s u, (seg M dt s u).rv.isSome → s.rv.isSome) (us : List (V3 ℝ)) (s : Craft)
    (h : (us.foldl (seg M dt) s).rv.isSome) : s.rv.isSome := by
  induction us generalizing s with
  | nil => exact h
  | cons u us ih => exact hM _ _ (ih _ h)

theorem isSome_toCraft {s : Craft} (h : s.rv.isSome) : ∃ b, s = toCraft b := by
  obtain ⟨x, hx⟩ := Option.isSome_iff_exists.1 h
  exact ⟨⟨x, s.m⟩, by unfold toCraft; ext1 <;> simp [hx]⟩

theorem flight_fwd {φ : RV ℝ → ℝ → Option (RV ℝ)} {dt c veff : ℝ} (hc : 0 ≤ c) (hv : 0 < veff)
    (us : List (V3 ℝ)) {a b : Body} (ha : 0 < a.m) :
    Flight φ dt c veff (us.map fun u => (true, u)) a b ↔
      us.foldl (seg (fwdMachine φ c veff) dt) (toCraft a) = toCraft b := by
  induction us generalizing a with
  | nil => exact ⟨fun h => by rw [show a = b from h]; rfl, fun h => toCraft_inj h⟩
  | cons u us ih =>
    constructor
    · rintro ⟨x, h1, h2⟩
      rw [List.foldl_cons, (segment_fwd hc hv ha u).1 h1]
      exact (ih (segment_pos h1).2).1 h2
    · intro h
      rw [List.foldl_cons] at h
      obtain ⟨x, hx⟩ := isSome_toCraft (foldl_some (fun _ _ => seg_none_fwd) us _ (by rw [h]; rfl))
      rw [hx] at h
      have h1 := (segment_fwd hc hv ha u).2 hx
      exact ⟨x, h1, (ih (segment_pos h1).2).2 h⟩

theorem flight_bck {φ : RV ℝ → ℝ → Option (RV ℝ)} (hφ : LocalFlow φ) {dt c veff : ℝ} (hc : 0 ≤ c)
    (hv : 0 < veff) (us : List (V3 ℝ)) {a b : Body} (hb : 0 < b.m) :
    Flight φ dt c veff (us.map fun u => (false, u)) a b ↔
      us.reverse.foldl (seg (bckMachine φ c veff) (-dt)) (toCraft b) = toCraft a := by
  induction us generalizing a with
  | nil => exact ⟨fun h => by rw [show a = b from h]; rfl, fun h => (toCraft_inj h).symm⟩
  | cons u us ih =>
    rw [List.reverse_cons, List.foldl_append, List.foldl_cons, List.foldl_nil]
    constructor
    · rintro ⟨x, h1, h2⟩
      rw [ih.1 h2]
      exact (segment_bck hφ hc hv (segment_pos h1).2 u).1 h1
    · intro h
      obtain ⟨x, hx⟩ := isSome_toCraft (seg_none_bck (by rw [h]; rfl))
      rw [hx] at h
      have h2 := ih.2 hx
      have hxm : 0 < x.m := by
        have hm : ∀ (us : List (V3 ℝ)) (s : Craft), 0 < s.m →
            0 < (us.foldl (seg (bckMachine φ c veff) (-dt)) s).m := by
          intro us
          induction us with
          | nil => intro s hs; exact hs
          | cons u us ih =>
            intro s hs
            exact ih _ (bckKick_m hc hv (s := craftCoast φ s (-dt / 2)) hs u).1
        have := hm us.reverse (toCraft b) hb
        rw [hx] at this
        exact this
      exact ⟨x, (segment_bck hφ hc hv hxm u).2 h, h2⟩

theorem flight_append (φ : RV ℝ → ℝ → Option (RV ℝ)) (dt c veff : ℝ) (xs ys : List (Bool × V3 ℝ))
    (a b : Body) :
    Flight φ dt c veff (xs ++ ys) a b ↔ ∃ x, Flight φ dt c veff xs a x ∧ Flight φ dt c veff ys x b := by
  induction xs generalizing a with
  | nil => exact ⟨fun h => ⟨a, rfl, h⟩, fun ⟨x, h1, h2⟩ => by rw [show a = x from h1]; exact h2⟩
  | cons p xs ih =>
    obtain ⟨k, u⟩ := p
    simp only [List.cons_append, Flight, ih]
    constructor
    · rintro ⟨y, h1, x, h2, h3⟩; exact ⟨x, ⟨y, h1, h2⟩, h3⟩
    · rintro ⟨x, ⟨y, h1, h2⟩, h3⟩; exact ⟨y, h1, x, h2, h3⟩

theorem diff_zero (x y : RV ℝ) :
    ((⟨⟨x.r.x - y.r.x, x.r.y - y.r.y, x.r.z - y.r.z⟩, ⟨x.v.x - y.v.x, x.v.y - y.v.y, x.v.z - y.v.z⟩⟩ : RV ℝ)
      = ⟨0, 0⟩) ↔ x = y := by
  constructor
  · intro h
    injection h with h1 h2
    have a := congrArg V3.x h1; have b := congrArg V3.y h1; have c := congrArg V3.z h1
    have d := congrArg V3.x h2; have e := congrArg V3.y h2; have f := congrArg V3.z h2
    simp only [V3.zero_x, V3.zero_y, V3.zero_z] at a b c d e f
    ext <;> linarith
  · rintro rfl
    ext <;> simp

/-- **C43.** The seven mismatch constraints of a leg all vanish if and only if the leg can be flown:
starting at the initial state and mass and flying the segments one after the other (half a segment of
ballistic flight, an impulse obeying the momentum balance and Tsiolkovsky's equation, half a segment
of ballistic flight) one arrives at the final state and mass. The reference mass of the momentum
balance is the mass before the impulse on forward segments and after it on backward ones. Holds for
every reversible ballistic motion, every number of segments and every split of them. -/
theorem C43_mismatch_zero_iff_flyable {φ : RV ℝ → ℝ → Option (RV ℝ)} (hφ : LocalFlow φ) (l : Leg ℝ)
    (ht : l.throttles.length = 3 * l.nseg) (hs : l.nsegFwd + l.nsegBck = l.nseg)
    (htof : 0 ≤ l.tof) (hT : 0 ≤ l.maxThrust) (hisp : 0 < l.isp) (hms : 0 < l.ms) (hmf : 0 < l.mf) :
    computeMismatch φ l = .ok (some ⟨0, 0⟩, 0) ↔
      Flight φ (l.tof / l.nseg) (l.maxThrust * (l.tof / l.nseg)) (l.isp * G0)
        (((triples l.throttles).take l.nsegFwd).map (fun u => (true, u)) ++
          ((triples l.throttles).drop l.nsegFwd).map (fun u => (false, u)))
        ⟨l.rvs, l.ms⟩ ⟨l.rvf, l.mf⟩ := by
  set dt := l.tof / l.nseg with hdt
  set c := l.maxThrust * dt with hcdef
  set veff := l.isp * G0 with hveff
  have hc : 0 ≤ c := mul_nonneg hT (div_nonneg htof (Nat.cast_nonneg _))
  have hv : 0 < veff := mul_pos hisp G0_pos
  unfold computeMismatch
  simp only [fwdPass_eq _ _ _ l.nseg l.nsegFwd _ ht (by omega),
    bckPass_eq _ _ _ l.nseg l.nsegBck _ ht (by omega), Res.ok_bind,
    show l.nseg - l.nsegBck = l.nsegFwd by omega, ← hdt, ← hcdef, ← hveff]
  have eF := pass_foldl (M := fwdMachine φ c veff) (dt := dt) (coast_split hφ dt)
    ((triples l.throttles).take l.nsegFwd) ⟨some l.rvs, l.ms⟩
  have eB := pass_foldl (M := bckMachine φ c veff) (dt := -dt) (coast_split hφ (-dt))
    ((triples l.throttles).drop l.nsegFwd).reverse ⟨some l.rvf, l.mf⟩
  rw [eF, eB, flight_append]
  set F := ((triples l.throttles).take l.nsegFwd).foldl (seg (fwdMachine φ c veff) dt) ⟨some l.rvs, l.ms⟩ with hF
  set B := ((triples l.throttles).drop l.nsegFwd).reverse.foldl (seg (bckMachine φ c veff) (-dt))
    ⟨some l.rvf, l.mf⟩ with hB
  have key : (∃ x, F = toCraft x ∧ B = toCraft x) ↔
      ∃ x, Flight φ dt c veff (((triples l.throttles).take l.nsegFwd).map fun u => (true, u)) ⟨l.rvs, l.ms⟩ x ∧
        Flight φ dt c veff (((triples l.throttles).drop l.nsegFwd).map fun u => (false, u)) x ⟨l.rvf, l.mf⟩ := by
    constructor
    · rintro ⟨x, h1, h2⟩
      exact ⟨x, (flight_fwd hc hv _ hms).2 h1, (flight_bck hφ hc hv _ hmf).2 h2⟩
    · rintro ⟨x, h1, h2⟩
      exact ⟨x, (flight_fwd hc hv _ hms).1 h1, (flight_bck hφ hc hv _ hmf).1 h2⟩
  rw [← key]
  constructor
  · intro h
    injection h with h
    injection h with h1 h2
    rw [Option.bind_eq_some_iff] at h1
    obtain ⟨x, hx, h1⟩ := h1
    rw [Option.map_eq_some_iff] at h1
    obtain ⟨y, hy, h1⟩ := h1
    rw [diff_zero] at h1
    subst h1
    have hm : F.m = B.m := by linarith
    exact ⟨⟨x, F.m⟩, by unfold toCraft; ext1 <;> simp [hx], by unfold toCraft; ext1 <;> simp [hy, hm]⟩
  · rintro ⟨x, h1, h2⟩
    rw [h1, h2]
    simp only [toCraft, Option.bind_some, Option.map_some, sub_self]
    rfl

/-- Inertial motion is a reversible ballistic motion. -/
theorem inertial_flow : LocalFlow fun x t => some ⟨x.r + t • x.v, x.v⟩ := by
  constructor
  · rintro x t y h
    injection h with h; subst h
    congr 1
    ext <;> simp
  · intro x t z
    constructor
    · intro h
      refine ⟨_, rfl, ?_⟩
      rw [← h]
      congr 1
      ext <;> simp <;> ring
    · rintro ⟨y, h1, h2⟩
      injection h1 with h1
      rw [← h2, ← h1]
      congr 1
      ext <;> simp <;> ring

/-- A flyable leg meeting the hypotheses of C43: inertial motion, two segments, unit throttle on the
first; the final state and mass are those the forward pass reaches. -/
example : ∃ l : Leg ℝ, l.throttles.length = 3 * l.nseg ∧ l.nsegFwd + l.nsegBck = l.nseg ∧
    0 < l.tof ∧ 0 < l.maxThrust ∧ 0 < l.isp ∧ 0 < l.ms ∧ 0 < l.mf ∧ l.throttles.head? = some 1 ∧
    computeMismatch (fun x t => some ⟨x.r + t • x.v, x.v⟩) l = .ok (some ⟨0, 0⟩, 0) := by
  let φ : RV ℝ → ℝ → Option (RV ℝ) := fun x t => some ⟨x.r + t • x.v, x.v⟩
  let s : Craft := pass (fwdMachine φ (1 * (2 / (2 : ℕ))) (1 * G0)) (2 / (2 : ℕ))
    (triples [1, 0, 0, 0, 1, 0]) ⟨some ⟨⟨1, 0, 0⟩, ⟨0, 1, 0⟩⟩, 1⟩
  have hm : 0 < s.m := by
    have h := pass_rocket (M := fwdMachine φ (1 * (2 / (2 : ℕ))) (1 * G0)) (fun s t => rfl)
      (fun s u hm => fwdKick_m (by norm_num) (mul_pos one_pos G0_pos) hm u) (2 / (2 : ℕ))
      (triples [1, 0, 0, 0, 1, 0]) ⟨some ⟨⟨1, 0, 0⟩, ⟨0, 1, 0⟩⟩, 1⟩ one_pos
    exact h.pos one_pos
  obtain ⟨x, hx⟩ : ∃ x, s.rv = some x := ⟨_, rfl⟩
  refine ⟨⟨⟨⟨1, 0, 0⟩, ⟨0, 1, 0⟩⟩, 1, [1, 0, 0, 0, 1, 0], x, s.m, 2, 1, 1, 1, 1, 2, 2, 0⟩, rfl, rfl,
    by norm_num, one_pos, one_pos, one_pos, hm, rfl, ?_⟩
  unfold computeMismatch
  simp only [fwdPass_eq _ _ _ 2 2 _ (show ([1, 0, 0, 0, 1, 0] : List ℝ).length = 3 * 2 from rfl) le_rfl,
    bckPass_eq _ _ _ 2 0 _ (show ([1, 0, 0, 0, 1, 0] : List ℝ).length = 3 * 2 from rfl) (by omega), Res.ok_bind]
  have e1 : (triples ([1, 0, 0, 0, 1, 0] : List ℝ)).take 2 = triples [1, 0, 0, 0, 1, 0] := rfl
  rw [e1]
  change Res.ok (s.rv.bind _, s.m - s.m) = _
  rw [hx, sub_self]
  have : ((triples ([1, 0, 0, 0, 1, 0] : List ℝ)).drop (2 - 0)).reverse = [] := rfl
  rw [this]
  simp only [pass, Option.bind_some, Option.map_some, sub_self]
  rfl

/-- **C58, negation: the cut matters.** For a one-segment leg with a non-zero burn the mass condition cannot
hold both for the leg cut at the end (the segment is a forward one) and for the same leg cut at the
start (the segment is a backward one), because the forward impulse divides the thrust by the mass
before the burn and the backward one by the mass after it. So the vanishing of the mismatch depends on
where the leg is cut. -/
theorem C58_cut_matters (φ : RV ℝ → ℝ → Option (RV ℝ)) (l : Leg ℝ) (u : V3 ℝ) (hu : u ≠ 0)
    (ht : l.throttles = [u.x, u.y, u.z]) (hn : l.nseg = 1)
    (htof : 0 < l.tof) (hT : 0 < l.maxThrust) (hisp : 0 < l.isp) (hms : 0 < l.ms) (hmf : 0 < l.mf)
    (d : Option (RV ℝ))
    (h1 : computeMismatch φ { l with nsegFwd := 1, nsegBck := 0 } = .ok (d, 0)) :
    ∀ d', computeMismatch φ { l with nsegFwd := 0, nsegBck := 1 } ≠ .ok (d', 0) := by
  intro d' h2
  obtain ⟨_, mF, mB, e1, r1, r2⟩ := C46_rocket_equation φ { l with nsegFwd := 1, nsegBck := 0 } 1
    (by rw [ht]; rfl) hn rfl htof.le hT.le hisp hms hmf
  obtain ⟨_, mF', mB', e2, r1', r2'⟩ := C46_rocket_equation φ { l with nsegFwd := 0, nsegBck := 1 } 1
    (by rw [ht]; rfl) hn rfl htof.le hT.le hisp hms hmf
  rw [h1] at e1; rw [h2] at e2
  injection e1 with e1; injection e1 with _ e1
  injection e2 with e2; injection e2 with _ e2
  simp only [ht, triples] at r1 r2 r1' r2'
  obtain ⟨x, hx, hlog, -, hne, hx'⟩ := r1
  obtain ⟨y, hy, hlog', -, -, hy'⟩ := r2'
  have hx' : mF = x := hx'
  have hy' : mB' = y := hy'
  have r2 : mB = l.mf := r2
  have r1' : mF' = l.ms := r1'
  have hc : 0 < l.maxThrust * (l.tof / (1 : ℕ)) := by
    have : 0 < l.tof / (1 : ℕ) := by simpa using htof
    exact mul_pos hT this
  have hv : 0 < l.isp * G0 := mul_pos hisp G0_pos
  have e3 : x = l.mf := by linarith
  have e4 : y = l.ms := by linarith
  rw [e3] at hlog; rw [e4] at hlog'
  have hs : Real.log (l.ms / l.mf) = - Real.log (l.mf / l.ms) := by
    rw [← Real.log_inv, inv_div]
  rw [hs] at hlog
  have hkey : l.maxThrust * (l.tof / (1 : ℕ)) / l.ms * V3.norm u =
      l.maxThrust * (l.tof / (1 : ℕ)) / l.mf * V3.norm u := by linarith
  have hun : V3.norm u ≠ 0 := fun h => hu (V3.norm_eq_zero.1 h)
  have := mul_right_cancel₀ hun hkey
  rw [div_eq_div_iff hms.ne' hmf.ne'] at this
  have hmm := mul_left_cancel₀ hc.ne' this
  rcases (hne.1 (by show x = l.ms; linarith)) with h | h
  · exact hc.ne' h
  · exact hu h

theorem segment_coast {φ : RV ℝ → ℝ → Option (RV ℝ)} {dt c veff : ℝ} (k k' : Bool) {a b : Body}
    (h : Segment φ dt c veff k 0 a b) : Segment φ dt c veff k' 0 a b := by
  obtain ⟨p, q, h1, h2, h3, h4, h5⟩ := h
  refine ⟨p, q, h1, h2, ⟨h3.pos, ?_, h3.ma, h3.mb, h3.rocket⟩, h4, h5⟩
  have hz : c • (0 : V3 ℝ) = 0 := by ext <;> simp
  have hm := h3.mom
  rw [hz] at hm ⊢
  have hne : (if k then p.m else q.m) ≠ 0 := by cases k; exacts [h3.mb.ne', h3.ma.ne']
  have hw : q.rv.v - p.rv.v = 0 := by
    have hx := congrArg V3.x hm; have hy := congrArg V3.y hm; have hzz := congrArg V3.z hm
    simp only [V3.smul_x, V3.smul_y, V3.smul_z, V3.zero_x, V3.zero_y, V3.zero_z, mul_eq_zero] at hx hy hzz
    ext
    · exact hx.resolve_left hne
    · exact hy.resolve_left hne
    · exact hzz.resolve_left hne
  rw [hw]
  ext <;> exact mul_zero _

/-- **C58, ballistic legs.** Missing for the full claim: legs with burns, for which it is false. When all throttles are zero the vanishing of the mismatch does not depend
on the cut. -/
theorem C58_ballistic_cut_free_partial {φ : RV ℝ → ℝ → Option (RV ℝ)} (hφ : LocalFlow φ) (l : Leg ℝ)
    (ht : l.throttles.length = 3 * l.nseg) (hz : ∀ u ∈ triples l.throttles, u = 0)
    (htof : 0 ≤ l.tof) (hT : 0 ≤ l.maxThrust) (hisp : 0 < l.isp) (hms : 0 < l.ms) (hmf : 0 < l.mf)
    (f b f' b' : ℕ) (hs : f + b = l.nseg) (hs' : f' + b' = l.nseg) :
    computeMismatch φ { l with nsegFwd := f, nsegBck := b } = .ok (some ⟨0, 0⟩, 0) ↔
    computeMismatch φ { l with nsegFwd := f', nsegBck := b' } = .ok (some ⟨0, 0⟩, 0) := by
  rw [C43_mismatch_zero_iff_flyable hφ { l with nsegFwd := f, nsegBck := b } ht hs htof hT hisp hms hmf,
    C43_mismatch_zero_iff_flyable hφ { l with nsegFwd := f', nsegBck := b' } ht hs' htof hT hisp hms hmf]
  have gen : ∀ (dt c veff : ℝ) (us : List (Bool × V3 ℝ)) (ks : List Bool) (a b : Body),
      (∀ p ∈ us, p.2 = 0) → ks.length = us.length → Flight φ dt c veff us a b →
      Flight φ dt c veff (ks.map fun k => (k, 0)) a b := by
    intro dt c veff us
    induction us with
    | nil =>
      intro ks a b _ hl h
      have : ks = [] := List.length_eq_zero_iff.1 hl
      subst this; exact h
    | cons p us ih =>
      intro ks a b h0 hl h
      cases ks with
      | nil => simp at hl
      | cons k ks =>
        obtain ⟨k0, u⟩ := p
        have : u = 0 := h0 (k0, u) (by simp)
        subst this
        obtain ⟨x, h1, h2⟩ := h
        exact ⟨x, segment_coast k0 k h1, ih ks x b (fun p hp => h0 p (by simp [hp])) (by simpa using hl) h2⟩
  have conv : ∀ (f : ℕ), (((triples l.throttles).take f).map (fun u => (true, u)) ++
      ((triples l.throttles).drop f).map (fun u => (false, u)) : List (Bool × V3 ℝ)) =
      ((((triples l.throttles).take f).map fun _ => true) ++
        (((triples l.throttles).drop f).map fun _ => false)).map fun k => (k, 0) := by
    intro f
    rw [List.map_append, List.map_map, List.map_map]
    congr 1
    · exact List.map_congr_left fun u hu => by rw [hz u (List.mem_of_mem_take hu)]; rfl
    · exact List.map_congr_left fun u hu => by rw [hz u (List.mem_of_mem_drop hu)]; rfl
  have mem : ∀ f, ∀ p ∈ (((triples l.throttles).take f).map (fun u => (true, u)) ++
      ((triples l.throttles).drop f).map (fun u => (false, u)) : List (Bool × V3 ℝ)), p.2 = 0 := by
    intro f p hp
    rw [conv f, List.mem_map] at hp
    obtain ⟨k, -, rfl⟩ := hp
    rfl
  have len : ∀ f g, ((((triples l.throttles).take f).map fun _ => true) ++
        (((triples l.throttles).drop f).map fun _ => false)).length =
      (((triples l.throttles).take g).map (fun u => (true, u)) ++
      ((triples l.throttles).drop g).map (fun u => (false, u)) : List (Bool × V3 ℝ)).length := by
    intro f g
    simp only [List.length_append, List.length_map, List.length_take, List.length_drop]
    omega
  constructor
  · intro h
    have := gen _ _ _ _ _ _ _ (mem f) (len f' f) h
    rw [← conv f'] at this
    exact this
  · intro h
    have := gen _ _ _ _ _ _ _ (mem f') (len f f') h
    rw [← conv f] at this
    exact this

end Kep3.SF
