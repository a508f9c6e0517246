import Verif.Mga.Gym

/-!
# C77: what the objective of the Cassini problems counts
-/

namespace Kep3.Mga
open Real V3

/-- **C77**: wherever the objective of one of the Cassini problems has a value within the bounds, it is the sum of three parts, none of them negative: the speed at which the Earth is left at the first gene, less the 3 km/s of the launcher; four fly-by impulses; and the impulse that
puts the spacecraft, at Saturn, into the orbit of pericentre 108950 km and eccentricity 0.98. -/
theorem C77_objective {sv : Solver} (info : Res String) (j : ℕ → Lambert.Junk) (E : PyEnv) (enc : Enc) {us : List JplLp}
    (hus : cassiniNames.map (fun n => JplLp.ofName n.toList) = us.map Res.ok) {p : Problem} (hp : cassini E enc = .ok p) {lb ub : List Py}
    (hb : p.bounds = .ok (lb, ub)) {t0 : ℝ} {g : List ℝ} (hx : InBox (lb, ub) (t0 :: g)) :
    ∀ f, (fitness j (cassiniMga (us.map (JplLp.udpla sv info)) enc) (t0 :: g)).run = .ok (some f) → ∃ (legs : List Lambert) (ep : List ℝ) (launch : ℝ) (flyby : List ℝ) (arrival : ℝ),
      Legs j (cassiniMga (us.map (JplLp.udpla sv info)) enc) legs ep ∧ ep[0]? = some t0 ∧ f = [launch + flyby.sum + arrival] ∧ flyby.length = 4 ∧ 0 ≤ launch ∧ (∀ d ∈ flyby, 0 ≤ d) ∧ 0 ≤ arrival ∧
      (∃ earth x y L v, JplLp.ofName "earth".toList = .ok earth ∧ Planet.eph (earth.udpla sv info) t0 = .ok x ∧ nums x = some y ∧
        legs[0]? = some L ∧ L.v0[0]? = some (some v) ∧ launch = max 0 (V3.norm (y.v - v) - 3000)) ∧
      (∃ saturn t x y L v, JplLp.ofName "saturn".toList = .ok saturn ∧ ep[5]? = some t ∧ Planet.eph (saturn.udpla sv info) t = .ok x ∧ nums x = some y ∧
        legs[4]? = some L ∧ L.v1[0]? = some (some v) ∧ insertion saturn.muSelf 108950000 0.98 (V3.norm (y.v - v)) = some arrival) := by
  intro f h
  obtain ⟨p', hp', -, -, hb', -⟩ := C77_bounds E enc
  rw [hp] at hp'
  obtain rfl := Res.ok.inj hp'
  rw [hb] at hb'
  simp only [Res.ok.injEq, Prod.mk.injEq] at hb'
  obtain ⟨rfl, rfl⟩ := hb'
  replace hx := inBox_iff hx
  have hlen : us.length = 6 := by
    have := congrArg List.length hus
    simpa [cassiniNames] using this.symm
  set m := cassiniMga (us.map (JplLp.udpla sv info)) enc with hm
  have hseq : m.seq = us.map (JplLp.udpla sv info) := rfl
  have hnl : m.nLegs = 5 := by simp [Mga.nLegs, hseq, hlen]
  have hxl := hx.length_eq
  have hdim : (t0 :: g).length = m.dim := by
    rw [← hxl]
    unfold Mga.dim
    rw [hnl]
    show _ = match enc with | .alpha => _ | _ => _
    cases enc <;> simp [cassiniBox]
  have halpha : m.enc = .alpha → ∃ T al, g = T :: al ∧ 0 < T ∧ ∀ a ∈ al, 0 < a ∧ a < 1 := by
    intro he
    have he : enc = .alpha := he
    subst he
    simp only [cassiniBox] at hx
    cases hx with
    | cons _ hx =>
      cases hx with
      | @cons _ T _ al hT hal =>
        refine ⟨T, al, rfl, ?_, fun a ha => ?_⟩
        · have := hT.1; push_cast at this; linarith
        · obtain ⟨i, hi, rfl⟩ := List.getElem_of_mem ha
          have hl := hal.length_eq
          have := (List.forall₂_iff_get.1 hal).2 i (by omega) hi
          simp only [List.get_eq_getElem, List.getElem_replicate] at this
          push_cast at this
          exact ⟨by linarith [this.1], by linarith [this.2]⟩
  obtain ⟨legs, ep, launch, flyby, arrival, tf, G, e0, ef, C, rfl⟩ := C66_objectives h hdim (by omega) halpha
  have hget : ∀ i (hi : i < 6), JplLp.ofName (cassiniNames[i]'hi).toList = .ok (us[i]'(by omega)) := by
    intro i hi
    have h6 : cassiniNames.length = 6 := rfl
    have := congrArg (·[i]?) hus
    simp only [List.getElem?_map, List.getElem?_eq_getElem (show i < cassiniNames.length by omega),
      List.getElem?_eq_getElem (show i < us.length by omega), Option.map_some] at this
    exact Option.some.inj this
  have hpl : ∀ i (hi : i < 6), m.seq[i]? = some ((us[i]'(by omega)).udpla sv info) := fun i hi => by
    rw [hseq]; simp [hlen, hi]
  refine ⟨legs, ep, launch, flyby, arrival, G, e0, rfl, by rw [C.count, hnl], C.launch_nonneg, C.flyby_nonneg, C.arrival_nonneg, ?_, ?_⟩
  · obtain ⟨u, t, x, y, L, v, h1, h2, h3, h4, h8, h9, h5⟩ := C.launch_eq
    rw [hpl 0 (by omega)] at h1
    obtain rfl := Option.some.inj h1
    rw [e0] at h2
    obtain rfl := Option.some.inj h2
    refine ⟨_, x, y, L, v, hget 0 (by omega), h3, h4, h8, h9, ?_⟩
    rw [h5, show m.vinf = 3000 by rw [hm]; norm_num [cassiniMga]]
  · obtain ⟨u, t, x, y, L, v, h1, h2, h3, h4, h8, h9, -, h5⟩ := C.arrival_eq
    rw [hnl, hpl 5 (by omega)] at h1
    obtain rfl := Option.some.inj h1
    obtain ⟨mu, h6, h7⟩ := h5 rfl
    have h6 : Res.ok (us[5]'(by omega)).muSelf = Res.ok mu := h6
    obtain rfl := Res.ok.inj h6
    rw [hnl] at h2 h8
    exact ⟨_, t, x, y, L, v, hget 5 (by omega), h2, h3, h4, h8, h9, h7⟩

/-- The published solution is about this chromosome; whatever its objective is, it is no less than what the launcher leaves to do. -/
example {sv : Solver} (info : Res String) (j : ℕ → Lambert.Junk) (E : PyEnv) {us : List JplLp}
    (hus : cassiniNames.map (fun n => JplLp.ofName n.toList) = us.map Res.ok) (f : List ℝ)
    (h : (fitness j (cassiniMga (us.map (JplLp.udpla sv info)) .direct) [-790, 158, 449, 55, 1025, 4554]).run = .ok (some f)) :
    ∃ earth x y v c, JplLp.ofName "earth".toList = .ok earth ∧ Planet.eph (earth.udpla sv info) (-790) = .ok x ∧ nums x = some y ∧ f = [c] ∧ V3.norm (y.v - v) - 3000 ≤ c := by
  obtain ⟨p, hp, -, -, hb, -⟩ := C77_bounds E .direct
  have hbox : InBox ((cassiniBox .direct).map (pyNum ·.1), (cassiniBox .direct).map (pyNum ·.2)) [-790, 158, 449, 55, 1025, 4554] := by
    refine ⟨rfl, rfl, fun i x hx => ?_⟩
    match i, hx with
    | 0, hx => exact ⟨-1000, 0, rfl, rfl, by norm_num at hx ⊢; constructor <;> linarith⟩
    | 1, hx => exact ⟨30, 400, rfl, rfl, by norm_num at hx ⊢; constructor <;> linarith⟩
    | 2, hx => exact ⟨100, 470, rfl, rfl, by norm_num at hx ⊢; constructor <;> linarith⟩
    | 3, hx => exact ⟨30, 400, rfl, rfl, by norm_num at hx ⊢; constructor <;> linarith⟩
    | 4, hx => exact ⟨400, 2000, rfl, rfl, by norm_num at hx ⊢; constructor <;> linarith⟩
    | 5, hx => exact ⟨1000, 6000, rfl, rfl, by norm_num at hx ⊢; constructor <;> linarith⟩
    | n + 6, hx => simp at hx
  obtain ⟨legs, ep, launch, flyby, arrival, -, -, rfl, -, h1, h2, h3, ⟨earth, x, y, L, v, k1, k2, k3, -, -, k4⟩, -⟩ := C77_objective info j E .direct hus hp hb hbox f h
  refine ⟨earth, x, y, v, _, k1, k2, k3, rfl, ?_⟩
  have := le_max_right 0 (V3.norm (y.v - v) - 3000)
  have := List.sum_nonneg h2
  linarith

end Kep3.Mga
