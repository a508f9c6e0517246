import Verif.Mga.Problem
import Verif.Mga.Props66
import Verif.Planet.Props34
import Verif.Lambert.Props30

/-!
# The Cassini problems of the gym (C77)

`pykep/trajopt/gym/_cassini_mga.py`: three problems that differ in the encoding of the times of flight.
-/

namespace Kep3.Mga
open Real V3

/-! ## The model -/

/-- The planets of `_seq_cassini`, pykep/trajopt/gym/_cassini_mga.py:5-10. -/
def cassiniNames : List String := ["earth", "venus", "venus", "earth", "jupiter", "saturn"]

/-- A number as a Python value. -/
def pyNum (q : ℚ) : Py := .num (.fin q)

/-- The argument `tof`, pykep/trajopt/gym/_cassini_mga.py:17, 42, 67. -/
def cassiniTof : Enc → Py
  | .direct => .list [.list [pyNum 30, pyNum 400], .list [pyNum 100, pyNum 470], .list [pyNum 30, pyNum 400],
      .list [pyNum 400, pyNum 2000], .list [pyNum 1000, pyNum 6000]]
  | .alpha => .list [pyNum 4000, pyNum 7000]
  | .eta => pyNum 7000

/-- The argument `tof_encoding`, pykep/trajopt/gym/_cassini_mga.py:19, 44, 69. -/
def Enc.name : Enc → String
  | .direct => "direct"
  | .alpha => "alpha"
  | .eta => "eta"

/-- The central gravity parameter of the `jpl_lp` planets as a double, include/kep3/core_astro/constants.hpp:29. The decimal
value stands for the double. -/
def muSunDbl : Dbl := .fin 132712440041279419000

/-- `super().__init__(...)` of the three classes, pykep/trajopt/gym/_cassini_mga.py:13-22, 38-47, 63-72. -/
def cassini (E : PyEnv) (enc : Enc) : Res Problem :=
  (make E (cassiniNames.map fun _ => .ok muSunDbl) (cassiniTof enc) false enc.name true (some (.fin 0.98))
    (some (.fin 108950000)) [.num (.fin (-1000)), .num (.fin 0)]).1

/-- The same object as it is evaluated, pykep/trajopt/gym/_cassini_mga.py:13-22, 38-47, 63-72: `us` are the planets of the
sequence. -/
noncomputable def cassiniMga (us : List Udpla) (enc : Enc) : Mga where
  seq := us
  tof := 7000
  vinf := 3 * 1000
  multiObjective := false
  enc := enc
  orbitInsertion := true
  eTarget := 0.98
  rpTarget := 108950000
  commonMu := MU_SUN

/-- The names bound in the module when its functions run, pykep/trajopt/gym/_cassini_mga.py:1-2, 5, 12, 37, 62, 87-91. -/
def gymGlobals : List String := ["_pk", "_mga", "_seq_cassini", "_cassini1_udp", "_cassini1a_udp", "_cassini1n_udp", "cassini1",
  "cassini1_a", "cassini1_n"]

/-- The name that the list comprehension in `get_extra_info` iterates over, pykep/trajopt/gym/_cassini_mga.py:27-31, 52-56,
77-81: the same in the three classes. -/
def extraInfoSeq : String := "_seq_cassini1"

/-- `get_extra_info`: the names of the planets (`names`), or `NameError` when a name is not bound. The text around them is
left out. -/
def extraInfo (names : Res (List String)) : Res (List String) :=
  if extraInfoSeq ∈ gymGlobals then names else .err .name

/-! ## What a user expects -/

/-- `m` is the object that the constructor made, with its arguments read as numbers: the members that the evaluation uses are
the ones that were stored. The time `tof` is used as a number in the eta encoding only, the data of the target orbit with orbit
insertion only. `vinf` is stored without a check and not among the members of `Problem`. -/
structure Problem.Evaluates (p : Problem) (m : Mga) : Prop where
  enc : p.enc = m.enc.name
  multiObjective : p.multiObjective = m.multiObjective
  orbitInsertion : p.orbitInsertion = m.orbitInsertion
  tof : m.enc = .eta → ∃ q : ℚ, p.tof = pyNum q ∧ m.tof = q
  eTarget : m.orbitInsertion → ∃ q : ℚ, p.eTarget = some (.fin q) ∧ m.eTarget = q
  rpTarget : m.orbitInsertion → ∃ q : ℚ, p.rpTarget = some (.fin q) ∧ m.rpTarget = q
  nLegs : p.nLegs = m.nLegs
  commonMu : ∃ q : ℚ, p.commonMu = .fin q ∧ m.commonMu = q

/-- A chromosome within the bounds, as an optimiser makes them. -/
def InBox (b : List Py × List Py) (x : List ℝ) : Prop :=
  b.1.length = x.length ∧ b.2.length = x.length ∧ ∀ (i : ℕ) v, x[i]? = some v → ∃ l u : ℚ,
    b.1[i]? = some (pyNum l) ∧ b.2[i]? = some (pyNum u) ∧ (l : ℝ) ≤ v ∧ v ≤ (u : ℝ)

/-- The states of the planets at the encounters. -/
def Encounters (seq : List Udpla) (ep : List ℝ) (rv : List (RV ℝ)) : Prop :=
  rv.length = seq.length ∧ ∀ (i : ℕ) x, rv[i]? = some x → ∃ u t, seq[i]? = some u ∧ ep[i]? = some t ∧
    Planet.eph u t = .ok (spread (some x))

/-- A leg between positions that are not collinear, but lie in a plane through the pole of the ecliptic. -/
def PolarLeg (rv : List (RV ℝ)) : Prop :=
  ∃ (i : ℕ) (a b : RV ℝ), rv[i]? = some a ∧ rv[i + 1]? = some b ∧ cross a.r b.r ≠ 0 ∧ (cross a.r b.r).z = 0

/-! ## Computations that do not raise -/

/-- The computation ends without an exception or undefined behaviour. -/
def Returns {α : Type} (m : OptionT Res α) : Prop := ∃ o, m.run = .ok o

theorem returns_bind {α β : Type} {m : OptionT Res α} {f : α → OptionT Res β} (hm : Returns m)
    (hf : ∀ a, m.run = .ok (some a) → Returns (f a)) : Returns (m >>= f) := by
  obtain ⟨o, ho⟩ := hm
  cases o with
  | none => exact ⟨none, by rw [OptionT.run_bind, ho]; rfl⟩
  | some a =>
    obtain ⟨o', h'⟩ := hf a ho
    exact ⟨o', by rw [OptionT.run_bind, ho]; exact h'⟩

theorem returns_lift {α : Type} {r : Res α} {a : α} (h : r = .ok a) : Returns (lift r) := ⟨some a, by
  rw [run_lift_some.2 h]⟩

theorem returns_num {α : Type} (o : Option α) : Returns (num o) := ⟨o, rfl⟩

theorem returns_pure {α : Type} (a : α) : Returns (pure a : OptionT Res α) := ⟨some a, rfl⟩

theorem returns_mapM {α β : Type} {f : α → OptionT Res β} {l : List α} (h : ∀ a ∈ l, Returns (f a)) : Returns (l.mapM f) := by
  induction l with
  | nil => exact returns_pure []
  | cons a l ih =>
    rw [List.mapM_cons]
    exact returns_bind (h a (by simp)) fun b _ => returns_bind (ih fun c hc => h c (by simp [hc])) fun _ _ => returns_pure _

/-- A loop whose iterations return numbers or raise the same exception. -/
theorem mapM_or {α β : Type} {f : α → OptionT Res β} {e : Exc} {l : List α}
    (h : ∀ a ∈ l, (∃ b, (f a).run = .ok (some b)) ∨ (f a).run = .err e) :
    (∃ r, (l.mapM f).run = .ok (some r)) ∨ (l.mapM f).run = .err e := by
  induction l with
  | nil => exact .inl ⟨[], rfl⟩
  | cons a l ih =>
    rw [List.mapM_cons]
    rcases h a (by simp) with ⟨b, hb⟩ | hb
    · rcases ih fun c hc => h c (by simp [hc]) with ⟨r, hr⟩ | hr
      · exact .inl ⟨b :: r, by simp only [run_bind_some, run_pure_some]; exact ⟨b, hb, r, hr, rfl⟩⟩
      · right
        rw [OptionT.run_bind, hb]
        show (l.mapM f >>= fun r => pure (b :: r)).run = _
        rw [OptionT.run_bind, hr]
        rfl
    · right
      rw [OptionT.run_bind, hb]
      rfl

theorem run_err_bind {α β : Type} {m : OptionT Res α} {e : Exc} (h : m.run = .err e) (f : α → OptionT Res β) :
    (m >>= f).run = .err e := by
  rw [OptionT.run_bind, h]; rfl

theorem idx_some {α : Type} {l : List α} {i : ℕ} (h : i < l.length) : idx l i = .ok l[i] := by
  rw [idx_ok]; simp [h]

/-! ## The planets -/

/-- No planet comes nearer to the Sun than 40 million kilometres. -/
theorem jpl_distance {sv : Solver} {info : Res String} {s : List Char} {p : JplLp} (hp : JplLp.ofName s = .ok p) {t : ℝ}
    {y : RV (Option ℝ)} {x : RV ℝ} (hy : Planet.eph (p.udpla sv info) t = .ok y) (hx : nums y = some x) :
    y = spread (some x) ∧ 4e10 ≤ norm x.r := by
  replace hy : JplLp.eph sv p t = .ok y := hy
  obtain ⟨n, el, r, f, mu, hd, d1, d2, d3, -⟩ := JplLp.ofName_ok hp
  unfold JplLp.eph JplLp.fElements at hy
  split_ifs at hy with hr
  · simp at hy
  push Not at hr
  obtain ⟨c1, c2⟩ := century hr.1 hr.2
  obtain ⟨s1, s2, s3, -⟩ := JplLp.secular hd c1 c2
  have hperi : 0.3 ≤ (el.1 0 + el.2 0 * ((t - 0.5) / 36525)) * (1 - (el.1 1 + el.2 1 * ((t - 0.5) / 36525))) := by
    generalize (t - 0.5) / 36525 = T at c1 c2
    clear s1 s2 s3 d1 d2 d3
    refine JplLp.data_cases (P := fun d => 0.3 ≤ (d.1.1 0 + d.1.2 0 * T) * (1 - (d.1.1 1 + d.1.2 1 * T)))
      ?_ ?_ ?_ ?_ ?_ ?_ ?_ ?_ hd
    all_goals
      simp only [JplLp.mercury, JplLp.venus, JplLp.earthMoon, JplLp.mars, JplLp.jupiter, JplLp.saturn, JplLp.uranus,
        JplLp.neptune, Matrix.cons_val_zero, Matrix.cons_val_one, Matrix.cons_val]
      norm_num at c1 c2 ⊢
      nlinarith
  cases hm : m2f sv ((p.updated t 3 - p.updated t 4) * DEG2RAD) (p.updated t 1) with
  | err e => simp [hm] at hy
  | ub => simp [hm] at hy
  | ok o =>
    simp only [hm, Res.ok_bind, Res.pure_eq] at hy
    cases o with
    | none =>
      simp only [Option.map_none, Res.ok.injEq] at hy
      subst hy
      simp [nums, spread] at hx
    | some f =>
      have hu0 : p.updated t 0 = el.1 0 + el.2 0 * ((t - 0.5) / 36525) := by unfold JplLp.updated; rw [d1, d2]
      have hu1 : p.updated t 1 = el.1 1 + el.2 1 * ((t - 0.5) / 36525) := by unfold JplLp.updated; rw [d1, d2]
      rw [← hu0] at s1
      rw [← hu1] at s2 s3
      rw [← hu0, ← hu1] at hperi
      simp only [Option.map_some] at hy
      set q : Par := { a := p.updated t 0 * AU, e := p.updated t 1, i := p.updated t 2 * DEG2RAD, Om := p.updated t 5 * DEG2RAD, om := (p.updated t 4 - p.updated t 5) * DEG2RAD, f := f } with hq
      have hcos := neg_one_le_cos f
      have hcos1 := cos_le_one f
      have hden : 0 < 1 + q.e * cos q.f := by
        show 0 < 1 + p.updated t 1 * cos f
        nlinarith
      have hae : 0 < q.a * (1 - q.e) := mul_pos (mul_pos s1 AU_pos) (by show 0 < 1 - p.updated t 1; linarith)
      obtain ⟨x', hx', -, hn, -⟩ := C17_orbit q MU_SUN_pos s2.le hae hden
      rw [d3, hx', Res.ok_bind] at hy
      obtain rfl := Res.ok.inj hy
      have hxx : nums (spread (some x')) = some x' := rfl
      rw [hxx] at hx
      obtain rfl := Option.some.inj hx
      refine ⟨rfl, ?_⟩
      rw [hn, le_div_iff₀ hden]
      have e1 : q.a * (1 - q.e ^ 2) = p.updated t 0 * (1 - p.updated t 1) * (1 + p.updated t 1) * AU := by
        show p.updated t 0 * AU * (1 - p.updated t 1 ^ 2) = _
        ring
      rw [e1]
      have e2 : 1 + q.e * cos q.f ≤ 1 + p.updated t 1 := by
        show 1 + p.updated t 1 * cos f ≤ _
        nlinarith
      have e3 : (4e10 : ℝ) ≤ 0.3 * AU := by unfold AU; norm_num
      have e4 : 0.3 * AU ≤ p.updated t 0 * (1 - p.updated t 1) * AU := mul_le_mul_of_nonneg_right hperi AU_pos.le
      have h40 : (0 : ℝ) ≤ 4e10 := by norm_num
      calc (4e10 : ℝ) * (1 + q.e * cos q.f) ≤ 4e10 * (1 + p.updated t 1) := mul_le_mul_of_nonneg_left e2 h40
        _ ≤ p.updated t 0 * (1 - p.updated t 1) * AU * (1 + p.updated t 1) :=
          mul_le_mul_of_nonneg_right (e3.trans e4) (by linarith)
        _ = _ := by ring

/-- Between two planets within the 250 years, the number of half revolutions fits into an unsigned integer. -/
theorem nonDim_small {a b : V3 ℝ} (ha : 4e10 ≤ norm a) (hb : 0 ≤ norm b) {t : ℝ} (h0 : 0 < t) (ht : t < 91311) :
    Lambert.nonDim a b (t * DAY2SEC) MU_SUN < 2 ^ 32 * π := by
  unfold Lambert.nonDim
  have hs : (2e10 : ℝ) ≤ Lambert.semiPerimeter a b := by
    unfold Lambert.semiPerimeter
    have := V3.norm_nonneg (b - a)
    norm_num at ha ⊢
    linarith
  set s := Lambert.semiPerimeter a b
  have hsp : (0 : ℝ) < 2e10 := by norm_num
  have hs0 : 0 < s := lt_of_lt_of_le hsp hs
  have e1 : 2 * MU_SUN / s / s / s ≤ 1 := by
    rw [div_div, div_div, div_le_one (by positivity)]
    have : (2e10 : ℝ) * 2e10 * 2e10 ≤ s * s * s := by gcongr
    refine le_trans ?_ (by linarith : (2e10 : ℝ) * 2e10 * 2e10 ≤ s * (s * s))
    unfold MU_SUN; norm_num
  have e2 : √(2 * MU_SUN / s / s / s) ≤ 1 := by rw [sqrt_le_one]; exact e1
  have e3 : 0 < t * DAY2SEC := mul_pos h0 DAY2SEC_pos
  have e4 : t * DAY2SEC < 2 ^ 33 := by
    unfold DAY2SEC
    norm_num; linarith
  have hpi := Real.pi_gt_three
  nlinarith

/-- The Lambert problem of a leg between two planets raises exactly if the leg is polar. -/
theorem lambert_leg (j : Lambert.Junk) {a b : V3 ℝ} (ha : 4e10 ≤ norm a) {t : ℝ} (h0 : 0 < t) (ht : t < 91311) :
    (cross a b ≠ 0 ∧ (cross a b).z = 0 → Lambert.make j a b (t * DAY2SEC) MU_SUN false 0 = .err .domainError) ∧
    (¬ (cross a b ≠ 0 ∧ (cross a b).z = 0) → ∃ L, Lambert.make j a b (t * DAY2SEC) MU_SUN false 0 = .ok L) := by
  have htof : 0 < t * DAY2SEC := mul_pos h0 DAY2SEC_pos
  have hn := nonDim_small ha (V3.norm_nonneg b) h0 ht
  refine ⟨fun h => (Lambert.C30_rejects _ _ _ _ _ _ _ _).2 ⟨rfl, .inr (.inr h)⟩, fun h => ?_⟩
  by_cases hc : cross a b = 0
  · have ha0 : a ≠ 0 := by
      rintro rfl
      have : norm (0 : V3 ℝ) = 0 := by simp [V3.norm, V3.dot]
      rw [this] at ha
      norm_num at ha
    obtain ⟨L, hL, -⟩ := Lambert.C30_collinear j false 0 htof MU_SUN_pos hc ha0 hn
    exact ⟨L, hL⟩
  · exact Lambert.C30_accepts j false 0 htof MU_SUN_pos (fun hz => h ⟨hc, hz⟩) hn

/-- The part of `_compute_dvs` after the Lambert problems raises nothing. -/
theorem rest_returns {j : ℕ → Lambert.Junk} {p : Mga} {us : List JplLp} {sv : Solver} {info : Res String}
    (hseq : p.seq = us.map (JplLp.udpla sv info)) (h2 : 2 ≤ us.length) {rv : List (RV ℝ)} (hrv : rv.length = p.seq.length)
    {mu : ℝ} {T : List ℝ} {lps : List Lambert} (hl : (lamberts j p.nLegs mu rv T).run = .ok (some lps)) (ep : List ℝ) :
    Returns (do
      let fb ← flybys p.seq rv lps
      let s ← lift (idx rv 0)
      let l0 ← lift (idx lps 0)
      let vs ← first l0.v0
      let f ← lift (idx rv (rv.length - 1))
      let lf ← lift (idx lps (lps.length - 1))
      let vf ← first lf.v1
      let arrival ← if p.orbitInsertion then do
          let u ← lift (idx p.seq (p.seq.length - 1))
          let mu ← lift (Planet.getMuSelf u)
          num (insertion mu p.rpTarget p.eTarget (norm (f.v - vf)))
        else pure (norm (f.v - vf))
      return (⟨max 0 (norm (s.v - vs) - p.vinf), fb, arrival, lps, norm (s.v - vs), ep, T⟩ : Dvs)) := by
  have hsl : p.seq.length = us.length := by rw [hseq]; simp
  have hn : p.nLegs = us.length - 1 := by unfold Mga.nLegs; rw [hsl]
  obtain ⟨b1, b2⟩ := mapM_range hl
  have hvel : ∀ L ∈ lps, 0 < L.v0.length ∧ 0 < L.v1.length := by
    intro L hL
    obtain ⟨k, hk, rfl⟩ := List.getElem_of_mem hL
    obtain ⟨a, h1, h2⟩ := b2 k (by omega)
    simp only [run_bind_some, run_lift_some, idx_ok] at h2
    obtain ⟨_, -, _, -, _, -, hm⟩ := h2
    rw [List.getElem?_eq_getElem hk] at h1
    obtain rfl := Option.some.inj h1
    obtain ⟨c1, c2, -⟩ := Lambert.C30_shape hm
    exact ⟨by rw [c1]; omega, by rw [c2]; omega⟩
  have hfirst : ∀ {l : List (Option (V3 ℝ))}, 0 < l.length → Returns (first l) := fun h =>
    returns_bind (returns_lift (idx_some h)) fun _ _ => returns_num _
  have hlp : ∀ {i : ℕ}, i < lps.length → ∀ {β : Type} {f : Lambert → OptionT Res β},
      (∀ L ∈ lps, Returns (f L)) → Returns (lift (idx lps i) >>= f) := fun hi _ _ hf =>
    returns_bind (returns_lift (idx_some hi)) fun L hL => hf L (by
      rw [run_lift_some, idx_ok] at hL
      exact List.mem_of_getElem? hL)
  have hrvi : ∀ {i : ℕ}, i < rv.length → Returns (lift (idx rv i)) := fun hi => returns_lift (idx_some hi)
  have hpl : ∀ {i : ℕ}, i < p.seq.length → ∀ {β : Type} {f : Udpla → OptionT Res β},
      (∀ q : JplLp, Returns (f (q.udpla sv info))) → Returns (lift (idx p.seq i) >>= f) := fun hi _ _ hf =>
    returns_bind (returns_lift (idx_some hi)) fun u hu => by
      rw [run_lift_some, idx_ok] at hu
      have := List.mem_of_getElem? hu
      rw [hseq, List.mem_map] at this
      obtain ⟨q, -, rfl⟩ := this
      exact hf q
  refine returns_bind (returns_mapM fun i hi => ?_) fun fb _ => returns_bind (hrvi (by omega)) fun s _ => hlp (by omega)
    fun L hL => returns_bind (hfirst (hvel L hL).1) fun vs _ => returns_bind (hrvi (by omega)) fun f _ =>
    hlp (by omega) fun L' hL' => returns_bind (hfirst (hvel L' hL').2) fun vf _ => ?_
  · rw [List.mem_range] at hi
    refine hlp (by omega) fun L hL => hlp (by omega) fun L' hL' => returns_bind (hrvi (by omega)) fun b _ =>
      hpl (by omega) fun q => returns_bind (hfirst (hvel L hL).2) fun vi _ => returns_bind (hfirst (hvel L' hL').1)
      fun vo _ => returns_lift (C29_physical_partial (vi - b.v) (vo - b.v) (u := q.udpla sv info) rfl rfl).2
  · dsimp only
    split_ifs
    · exact hpl (by omega) fun q => returns_bind (returns_lift (a := q.muSelf) rfl) fun _ _ =>
        returns_bind (returns_num _) fun _ _ => returns_pure _
    · exact returns_bind (returns_pure _) fun _ _ => returns_pure _

/-- A sum of positive numbers over a prefix. -/
theorem take_sum_le {T : List ℝ} (h : ∀ t ∈ T, 0 < t) (i : ℕ) : 0 ≤ (T.take i).sum ∧ (T.take i).sum ≤ T.sum := by
  have h1 : 0 ≤ (T.take i).sum := List.sum_nonneg fun t ht => (h t (List.mem_of_mem_take ht)).le
  have h2 : 0 ≤ (T.drop i).sum := List.sum_nonneg fun t ht => (h t (List.mem_of_mem_drop ht)).le
  have h3 : T.sum = (T.take i).sum + (T.drop i).sum := by rw [← List.sum_append, List.take_append_drop]
  exact ⟨h1, by linarith⟩

/-- The epochs of the encounters. -/
theorem epochs {t0 : ℝ} {T : List ℝ} (h : ∀ t ∈ T, 0 < t) {i : ℕ} {t : ℝ} (ht : (cumsum 0 (t0 :: T))[i]? = some t) :
    t0 ≤ t ∧ t ≤ t0 + T.sum := by
  have hi : i < (t0 :: T).length := by
    have := (List.getElem?_eq_some_iff.1 ht).1
    simpa using this
  rw [cumsum_get _ _ _ hi] at ht
  obtain rfl := Option.some.inj ht
  have := take_sum_le h i
  simp only [zero_add, List.take_succ_cons, List.sum_cons]
  exact ⟨by linarith, by linarith⟩

/-- **C77**: a trajectory among the low-precision planets, within the dates of their validity and with positive times of
flight, is evaluated without undefined behaviour; the only exception is the one of the Lambert problem for a polar leg. -/
theorem C77_raises_iff {sv : Solver} (hsv : sv.Sound) (hq : sv.Quick) (info : Res String) (j : ℕ → Lambert.Junk) {p : Mga}
    {us : List JplLp} (hus : ∀ q ∈ us, ∃ s, JplLp.ofName s = .ok q) (hseq : p.seq = us.map (JplLp.udpla sv info))
    (h2 : 2 ≤ us.length) (hmu : p.commonMu = MU_SUN) {t0 : ℝ} {T : List ℝ} (hT : T.length = p.nLegs)
    (hpos : ∀ t ∈ T, 0 < t) (hlo : -73048 < t0) (hhi : t0 + T.sum < 18263) :
    ((∃ rv, Encounters p.seq (cumsum 0 (t0 :: T)) rv ∧ PolarLeg rv) → (fly j p t0 T).run = .err .domainError) ∧
    ((¬ ∃ rv, Encounters p.seq (cumsum 0 (t0 :: T)) rv ∧ PolarLeg rv) → ∃ o, (fly j p t0 T).run = .ok o) := by
  have hsl : p.seq.length = us.length := by rw [hseq]; simp
  have hn : p.nLegs = us.length - 1 := by unfold Mga.nLegs; rw [hsl]
  set ep := cumsum 0 (t0 :: T) with hep
  have hepl : ep.length = us.length := by rw [hep]; simp [hT]; omega
  have hpl : ∀ i (hi : i < us.length), p.seq[i]? = some (us[i].udpla sv info) := fun i hi => by
    rw [hseq]; simp [hi]
  -- the ephemerides
  have heph : ∀ i < us.length, ∃ u t y, p.seq[i]? = some u ∧ ep[i]? = some t ∧ Planet.eph u t = .ok y ∧
      ∀ x, nums y = some x → y = spread (some x) ∧ 4e10 ≤ norm x.r := by
    intro i hi
    obtain ⟨s, hs⟩ := hus us[i] (List.getElem_mem hi)
    have he : ep[i]? = some ep[i] := List.getElem?_eq_getElem (by omega)
    obtain ⟨b1, b2⟩ := epochs hpos he
    obtain ⟨-, ⟨y, hy⟩, -⟩ := C35_ellipse hsv hq info hs (t := ep[i]) (by linarith) (by linarith) (T := (ep[i] - 1 / 2) / 36525)
      (u := fun k => us[i].elements0 k + us[i].elementsDot k * ((ep[i] - 1 / 2) / 36525)) (by ring) (fun _ => rfl) rfl
    exact ⟨_, _, y, hpl i hi, he, hy, fun x hx => jpl_distance hs hy hx⟩
  have hret : Returns (ephs p.seq ep) := returns_mapM fun i hi => by
    rw [List.mem_range, hsl] at hi
    obtain ⟨u, t, y, e1, e2, e3, -⟩ := heph i hi
    exact returns_bind (returns_lift (idx_ok.2 e1)) fun u' hu => returns_bind (returns_lift (idx_ok.2 e2)) fun t' ht => by
      rw [run_lift_some, idx_ok] at hu ht
      rw [e1] at hu
      rw [e2] at ht
      obtain rfl := Option.some.inj hu
      obtain rfl := Option.some.inj ht
      exact returns_bind (returns_lift e3) fun _ _ => returns_num _
  have hfly : ∀ rv, (ephs p.seq ep).run = .ok (some rv) ↔ Encounters p.seq ep rv := by
    intro rv
    constructor
    · intro h
      obtain ⟨a1, a2⟩ := mapM_range h
      refine ⟨a1, fun i x hx => ?_⟩
      have hi : i < us.length := by
        have := (List.getElem?_eq_some_iff.1 hx).1
        omega
      obtain ⟨x', hx', h'⟩ := a2 i (by omega)
      simp only [run_bind_some, run_lift_some, run_num_some, idx_ok] at h'
      obtain ⟨u, hu, t, ht, y, hy, hnum⟩ := h'
      rw [hx] at hx'
      obtain rfl := Option.some.inj hx'
      obtain ⟨u', t', y', e1, e2, e3, e4⟩ := heph i hi
      rw [hu] at e1
      rw [ht] at e2
      obtain rfl := Option.some.inj e1
      obtain rfl := Option.some.inj e2
      rw [hy] at e3
      obtain rfl := Res.ok.inj e3
      exact ⟨u, t, hu, ht, by rw [hy, (e4 x hnum).1]⟩
    · rintro ⟨h1, h3⟩
      obtain ⟨o, ho⟩ := hret
      have key : ∀ (is : List ℕ) (r : List (RV ℝ)), r.length = is.length → (∀ (k i : ℕ) x, is[k]? = some i → r[k]? = some x →
          ∃ u t, p.seq[i]? = some u ∧ ep[i]? = some t ∧ Planet.eph u t = .ok (spread (some x))) →
          (is.mapM fun i => do
            let u ← lift (idx p.seq i)
            let t ← lift (idx ep i)
            let x ← lift (Planet.eph u t)
            num (nums x)).run = .ok (some r) := by
        intro is
        induction is with
        | nil => intro r hr _; rw [List.length_eq_zero_iff.1 hr]; rfl
        | cons i is ih =>
          intro r hr hh
          cases r with
          | nil => simp at hr
          | cons x r =>
            rw [List.mapM_cons, run_bind_some]
            obtain ⟨u, t, e1, e2, e3⟩ := hh 0 i x rfl rfl
            refine ⟨x, ?_, ?_⟩
            · simp only [run_bind_some, run_lift_some, run_num_some, idx_ok]
              exact ⟨u, e1, t, e2, _, e3, rfl⟩
            · rw [run_bind_some]
              exact ⟨r, ih r (by simpa using hr) fun k i' x' hk hx => hh (k + 1) i' x' hk hx, rfl⟩
      refine key _ rv (by simpa using h1) fun k i x hk hx => ?_
      have hki : k = i := by
        rw [List.getElem?_eq_some_iff] at hk
        obtain ⟨_, hk⟩ := hk
        simpa using hk
      subst hki
      exact h3 k x hx
  -- the Lambert problems
  have hlam : ∀ rv, Encounters p.seq ep rv → (PolarLeg rv → (lamberts j p.nLegs p.commonMu rv T).run = .err .domainError) ∧
      (¬ PolarLeg rv → ∃ l, (lamberts j p.nLegs p.commonMu rv T).run = .ok (some l)) := by
    rintro rv ⟨r1, r2⟩
    have hleg : ∀ i < p.nLegs, ∃ a b t, rv[i]? = some a ∧ rv[i + 1]? = some b ∧ T[i]? = some t ∧ 4e10 ≤ norm a.r ∧
        0 < t ∧ t < 91311 := by
      intro i hi
      have ha : rv[i]? = some rv[i] := List.getElem?_eq_getElem (by omega)
      have hb : rv[i + 1]? = some rv[i + 1] := List.getElem?_eq_getElem (by omega)
      have ht : T[i]? = some T[i] := List.getElem?_eq_getElem (by omega)
      refine ⟨_, _, _, ha, hb, ht, ?_, hpos _ (List.getElem_mem _), ?_⟩
      · obtain ⟨u, t, e1, e2, e3⟩ := r2 i _ ha
        obtain ⟨u', t', y', f1, f2, f3, f4⟩ := heph i (by omega)
        rw [e1] at f1
        rw [e2] at f2
        obtain rfl := Option.some.inj f1
        obtain rfl := Option.some.inj f2
        rw [e3] at f3
        obtain rfl := Res.ok.inj f3
        exact (f4 _ rfl).2
      · have : T[i] ≤ T.sum := List.single_le_sum (fun t ht => (hpos t ht).le) _ (List.getElem_mem _)
        linarith
    have hrun : ∀ i a b t, rv[i]? = some a → rv[i + 1]? = some b → T[i]? = some t →
        (do let a ← lift (idx rv i)
            let b ← lift (idx rv (i + 1))
            let t ← lift (idx T i)
            lift (Lambert.make (j i) a.r b.r (t * DAY2SEC) p.commonMu false 0) : OptionT Res Lambert) =
          lift (Lambert.make (j i) a.r b.r (t * DAY2SEC) MU_SUN false 0) := by
      intro i a b t ha hb ht
      rw [run_lift_bind (idx_ok.2 ha), run_lift_bind (idx_ok.2 hb), run_lift_bind (idx_ok.2 ht), hmu]
    have hor := mapM_or (e := .domainError) (l := List.range p.nLegs) (f := fun i => (do
        let a ← lift (idx rv i)
        let b ← lift (idx rv (i + 1))
        let t ← lift (idx T i)
        lift (Lambert.make (j i) a.r b.r (t * DAY2SEC) p.commonMu false 0) : OptionT Res Lambert)) (fun i hi => by
      rw [List.mem_range] at hi
      obtain ⟨a, b, t, ha, hb, ht, h4, t1, t2⟩ := hleg i hi
      rw [hrun i a b t ha hb ht]
      by_cases hp : cross a.r b.r ≠ 0 ∧ (cross a.r b.r).z = 0
      · right
        rw [(lambert_leg (j i) h4 t1 t2).1 hp]
        rfl
      · left
        obtain ⟨L, hL⟩ := (lambert_leg (j i) h4 t1 t2).2 hp
        exact ⟨L, run_lift_some.2 hL⟩)
    constructor
    · rintro ⟨i, a, b, ha, hb, hp⟩
      rcases hor with ⟨l, hl⟩ | h
      · exfalso
        have hi : i < p.nLegs := by
          have := (List.getElem?_eq_some_iff.1 hb).1
          omega
        obtain ⟨L, -, hL⟩ := (mapM_range hl).2 i hi
        obtain ⟨a', b', t, ha', hb', ht, h4, t1, t2⟩ := hleg i hi
        rw [ha] at ha'
        rw [hb] at hb'
        obtain rfl := Option.some.inj ha'
        obtain rfl := Option.some.inj hb'
        rw [hrun i a b t ha hb ht, (lambert_leg (j i) h4 t1 t2).1 hp, run_lift_some] at hL
        simp at hL
      · exact h
    · intro hnp
      refine hor.resolve_right fun h => ?_
      rcases mapM_or (e := .value) (l := List.range p.nLegs) (f := fun i => (do
        let a ← lift (idx rv i)
        let b ← lift (idx rv (i + 1))
        let t ← lift (idx T i)
        lift (Lambert.make (j i) a.r b.r (t * DAY2SEC) p.commonMu false 0) : OptionT Res Lambert)) (fun i hi => by
          rw [List.mem_range] at hi
          obtain ⟨a, b, t, ha, hb, ht, h4, t1, t2⟩ := hleg i hi
          rw [hrun i a b t ha hb ht]
          left
          obtain ⟨L, hL⟩ := (lambert_leg (j i) h4 t1 t2).2 fun hp => hnp ⟨i, a, b, ha, hb, hp⟩
          exact ⟨L, run_lift_some.2 hL⟩) with ⟨r, hr⟩ | hr
      · exact absurd (hr.symm.trans h) (by simp)
      · exact absurd (hr.symm.trans h) (by simp)
  -- together
  constructor
  · rintro ⟨rv, hrv, hp⟩
    unfold fly
    rw [OptionT.run_bind, (hfly rv).2 hrv]
    exact run_err_bind ((hlam rv hrv).1 hp) _
  · intro hnp
    refine returns_bind hret fun rv hrv => ?_
    rw [hfly] at hrv
    obtain ⟨l, hl⟩ := (hlam rv hrv).2 fun h => hnp ⟨rv, hrv, h⟩
    exact returns_bind ⟨_, hl⟩ fun l' hl' => rest_returns hseq h2 hrv.1 hl' ep

/-! ## The three problems -/

/-- The bounds of the three problems. -/
def cassiniBox : Enc → List (ℚ × ℚ)
  | .direct => [(-1000, 0), (30, 400), (100, 470), (30, 400), (400, 2000), (1000, 6000)]
  | .alpha => (-1000, 0) :: (4000, 7000) :: List.replicate 5 (1 / 1000, 999 / 1000)
  | .eta => (-1000, 0) :: List.replicate 5 (1 / 1000, 999 / 1000)

theorem cassini_epochs : toEpoch (.num (.fin (-1000))) = .ok 860284800000000 ∧ toEpoch (.num (.fin 0)) = .ok 946684800000000 ∧
    Epoch.mjd2000 860284800000000 = -1000 ∧ Epoch.mjd2000 946684800000000 = 0 := by
  decide +kernel

/-- **C77**: the three problems are accepted by the constructor; these are their bounds. -/
theorem C77_bounds (E : PyEnv) (enc : Enc) : ∃ p, cassini E enc = .ok p ∧ p.nLegs = 5 ∧ p.nobj = 1 ∧
    p.bounds = .ok ((cassiniBox enc).map (pyNum ·.1), (cassiniBox enc).map (pyNum ·.2)) ∧
    ∀ m : Mga, p.Evaluates m ↔ m.enc = enc ∧ m.multiObjective = false ∧ m.orbitInsertion = true ∧ (enc = .eta → m.tof = 7000) ∧
      m.eTarget = 0.98 ∧ m.rpTarget = 108950000 ∧ m.seq.length = 6 ∧ m.commonMu = MU_SUN := by
  obtain ⟨h0, h1, m0, m1⟩ := cassini_epochs
  have hmu : checkMu (cassiniNames.map fun _ => .ok muSunDbl) = .ok muSunDbl := by
    simp [checkMu, cassiniNames, idx, muSunDbl, Dbl.beq]
  have hconv : convert [.num (.fin (-1000)), .num (.fin 0)] =
      (.ok (), [.epoch 860284800000000, .epoch 946684800000000]) :=
    convert_val (es := [860284800000000, 946684800000000]) (by simp [h0, h1])
  have hshape : checkTof E 6 enc.name (cassiniTof enc) = .ok () := by
    rw [checkTof_iff]
    cases enc with
    | alpha => exact .alpha _ _
    | eta => exact .eta _
    | direct =>
      refine Shape.direct [(pyNum 30, pyNum 400), (pyNum 100, pyNum 470), (pyNum 30, pyNum 400),
        (pyNum 400, pyNum 2000), (pyNum 1000, pyNum 6000)] rfl ?_
      simp only [List.mem_cons, List.not_mem_nil, or_false]
      rintro p (rfl | rfl | rfl | rfl | rfl) <;> simp [pyNum, PyEnv.ge, Dbl.le] <;> norm_num
  refine ⟨⟨[.epoch 860284800000000, .epoch 946684800000000], cassiniTof enc, enc.name, false, true, some (.fin 0.98),
    some (.fin 108950000), 5, muSunDbl⟩, ?_, rfl, rfl, ?_, fun m => ⟨fun h => ?_, ?_⟩⟩
  · refine (make_run _ _ _ _ _ _ _ _ _ _).2 ⟨muSunDbl, hmu, by rw [hconv], hshape, by simp, ?_⟩
    rw [hconv]; rfl
  · have g : (1 : ℚ) - 1 / 1000 = 999 / 1000 := by norm_num
    cases enc <;>
      simp [Problem.bounds, Problem.mjd2000, Enc.name, cassiniTof, cassiniBox, idx, item, items, gene, pyNum, m0, m1,
        List.mapM_cons, List.replicate] <;> norm_num
  · obtain ⟨a, b, c, d, e, f, g, k⟩ := h
    have a : enc = m.enc := by
      revert a
      cases enc <;> cases m.enc <;> simp [Enc.name]
    subst a
    have c : m.orbitInsertion = true := c.symm
    obtain ⟨q1, e1, e2⟩ := e c
    obtain ⟨q2, f1, f2⟩ := f c
    obtain ⟨q3, k1, k2⟩ := k
    simp only [Option.some.injEq, Dbl.fin.injEq] at e1 f1
    simp only [muSunDbl, Dbl.fin.injEq] at k1
    refine ⟨rfl, b.symm, c, fun he => ?_, ?_, ?_, ?_, ?_⟩
    · obtain ⟨q, d1, d2⟩ := d he
      rw [he] at d1
      simp only [cassiniTof, pyNum, Py.num.injEq, Dbl.fin.injEq] at d1
      rw [d2, ← d1]; norm_num
    · rw [e2, ← e1]; norm_num
    · rw [f2, ← f1]; norm_num
    · simp only [Mga.nLegs] at g; omega
    · rw [k2, ← k1, MU_SUN]; norm_num
  · rintro ⟨rfl, b, c, d, e, f, g, k⟩
    refine ⟨rfl, b.symm, c.symm, fun he => ⟨7000, by rw [he]; rfl, by rw [d he]; norm_num⟩, fun _ => ⟨_, rfl, by rw [e]; norm_num⟩,
      fun _ => ⟨_, rfl, by rw [f]; norm_num⟩, by simp [Mga.nLegs, g], ⟨_, rfl, by rw [k, MU_SUN]; norm_num⟩⟩

/-- The genes of a chromosome in the box. -/
theorem inBox_iff {bs : List (ℚ × ℚ)} {x : List ℝ} (h : InBox (bs.map (pyNum ·.1), bs.map (pyNum ·.2)) x) :
    List.Forall₂ (fun b v => (b.1 : ℝ) ≤ v ∧ v ≤ (b.2 : ℝ)) bs x := by
  obtain ⟨h1, -, h3⟩ := h
  rw [List.length_map] at h1
  rw [List.forall₂_iff_get]
  refine ⟨h1, fun i hi hx => ?_⟩
  obtain ⟨l, u, e1, e2, e3, e4⟩ := h3 i x[i] (List.getElem?_eq_getElem hx)
  simp only [List.getElem?_map, List.getElem?_eq_getElem hi, Option.map_some, Option.some.injEq, pyNum, Py.num.injEq,
    Dbl.fin.injEq] at e1 e2
  simp only [List.get_eq_getElem]
  rw [e1, e2]
  exact ⟨e3, e4⟩

/-- **C77**: for all chromosomes within the bounds, in the three encodings: the launch is within the 1000 days, the five times
of flight are positive, the arrival is within the dates of validity of all the planets, and the evaluation of the objective
raises nothing, except for the exception of the Lambert problem exactly if a leg is polar. -/
theorem C77_cassini {sv : Solver} (hsv : sv.Sound) (hq : sv.Quick) (info : Res String) (j : ℕ → Lambert.Junk) (E : PyEnv)
    (enc : Enc) {us : List JplLp} (hus : cassiniNames.map (fun n => JplLp.ofName n.toList) = us.map Res.ok) {p : Problem}
    (hp : cassini E enc = .ok p) {lb ub : List Py} (hb : p.bounds = .ok (lb, ub)) {x : List ℝ} (hx : InBox (lb, ub) x)
    {m : Mga} (hm : p.Evaluates m) (hseq : m.seq = us.map (JplLp.udpla sv info)) :
    ∃ t0 T, x[0]? = some t0 ∧ decodeTofs m.enc m.tof m.nLegs x = .ok (some T) ∧ -1000 ≤ t0 ∧ t0 ≤ 0 ∧ T.length = 5 ∧
      (∀ t ∈ T, 0 < t) ∧ T.sum ≤ 9270 ∧
      let polar := ∃ rv, Encounters m.seq (cumsum 0 (t0 :: T)) rv ∧ PolarLeg rv
      (polar → (fitness j m x).run = .err .domainError) ∧ (¬ polar → ∃ o, (fitness j m x).run = .ok o) := by
  obtain ⟨p', hp', -, -, hb', hev⟩ := C77_bounds E enc
  rw [hp] at hp'
  obtain rfl := Res.ok.inj hp'
  rw [hb] at hb'
  simp only [Res.ok.injEq, Prod.mk.injEq] at hb'
  obtain ⟨rfl, rfl⟩ := hb'
  replace hx := inBox_iff hx
  obtain ⟨rfl, -, -, htof, -, -, -, hmu⟩ := (hev m).1 hm
  have hlen : us.length = 6 := by
    have := congrArg List.length hus
    simpa [cassiniNames] using this.symm
  have husn : ∀ q ∈ us, ∃ s, JplLp.ofName s = .ok q := fun q hq => by
    have : Res.ok q ∈ us.map Res.ok := List.mem_map_of_mem hq
    rw [← hus, List.mem_map] at this
    obtain ⟨n, -, hn⟩ := this
    exact ⟨_, hn⟩
  have hnl : m.nLegs = 5 := by simp [Mga.nLegs, hseq, hlen]
  have hmain : ∀ t0 T, -1000 ≤ t0 → t0 ≤ 0 → T.length = 5 → (∀ t ∈ T, 0 < t) → T.sum ≤ 9270 →
      fitness j m x = objective j m t0 T →
      let polar := ∃ rv, Encounters m.seq (cumsum 0 (t0 :: T)) rv ∧ PolarLeg rv
      (polar → (fitness j m x).run = .err .domainError) ∧ (¬ polar → ∃ o, (fitness j m x).run = .ok o) := by
    intro t0 T h1 h2 h3 h4 h5 h6
    obtain ⟨a, b⟩ := C77_raises_iff hsv hq info j (p := m) husn hseq
      (by omega) hmu (t0 := t0) (T := T) (by rw [h3, hnl]) h4 (by linarith) (by linarith)
    refine ⟨fun h => ?_, fun h => ?_⟩
    · rw [h6]
      exact run_err_bind (a h) _
    · rw [h6]
      exact returns_bind (b h) fun _ _ => returns_pure _
  have hset : ∀ e, m.enc = e → { m with enc := e } = m := by rintro e rfl; rfl
  cases henc : m.enc with
  | direct =>
    rw [henc] at hx
    simp only [cassiniBox, List.forall₂_cons_left_iff, List.forall₂_nil_left_iff] at hx
    obtain ⟨t0, _, ⟨a1, a2⟩, ⟨t1, _, b1, ⟨t2, _, b2, ⟨t3, _, b3, ⟨t4, _, b4, ⟨t5, _, b5, rfl, rfl⟩, rfl⟩, rfl⟩, rfl⟩, rfl⟩, rfl⟩ := hx
    norm_num at a1 a2 b1 b2 b3 b4 b5
    have hs : ∀ t ∈ [t1, t2, t3, t4, t5], (0 : ℝ) < t := by
      simp only [List.mem_cons, List.not_mem_nil, or_false]
      rintro t (rfl | rfl | rfl | rfl | rfl) <;> linarith [b1.1, b2.1, b3.1, b4.1, b5.1]
    have hsum : [t1, t2, t3, t4, t5].sum ≤ 9270 := by simp; linarith [b1.2, b2.2, b3.2, b4.2, b5.2]
    exact ⟨t0, [t1, t2, t3, t4, t5], rfl, rfl, a1, a2, rfl, hs, hsum, hmain _ _ a1 a2 rfl hs hsum (by
      have := fitness_direct j m t0 [t1, t2, t3, t4, t5]
      rwa [hset _ henc] at this)⟩
  | alpha =>
    rw [henc] at hx
    simp only [cassiniBox, List.forall₂_cons_left_iff] at hx
    obtain ⟨t0, _, ⟨a1, a2⟩, ⟨T, al, b1, hal, rfl⟩, rfl⟩ := hx
    norm_num at a1 a2 b1
    have hl : al.length = 5 := by rw [← hal.length_eq]; simp
    have hr : ∀ a ∈ al, 0 < a ∧ a < 1 := fun a ha => by
      obtain ⟨k, hk, rfl⟩ := List.getElem_of_mem ha
      have := hal.get (i := k) (by simp; omega) hk
      simp only [List.get_eq_getElem, List.getElem_replicate] at this
      norm_num at this
      exact ⟨by linarith [this.1], by linarith [this.2]⟩
    have hne : al ≠ [] := by rintro rfl; simp at hl
    have hT : 0 < T := by linarith [b1.1]
    obtain ⟨ts, h1, h2, h3, h4⟩ := C52_alpha_times (t0 := t0) hr hne hT
    obtain ⟨ts', h1', h5⟩ := fitness_alpha j m (t0 := t0) hr hne hT
    rw [h1] at h1'
    simp only [Res.ok.injEq, Option.some.injEq, List.cons.injEq, true_and] at h1'
    subst h1'
    rw [hset _ henc] at h5
    have hsum : ts.sum ≤ 9270 := by linarith [b1.2]
    exact ⟨t0, ts, rfl, (C52_decode m.tof t0 (T :: al)).1 ts h1, a1, a2, by omega, h3, hsum, hmain _ _ a1 a2 (by omega) h3 hsum h5⟩
  | eta =>
    rw [henc] at hx
    simp only [cassiniBox, List.forall₂_cons_left_iff] at hx
    obtain ⟨t0, es, ⟨a1, a2⟩, hes, rfl⟩ := hx
    norm_num at a1 a2
    have hl : es.length = 5 := by rw [← hes.length_eq]; simp
    have hr : ∀ a ∈ es, 0 < a ∧ a < 1 := fun a ha => by
      obtain ⟨k, hk, rfl⟩ := List.getElem_of_mem ha
      have := hes.get (i := k) (by simp; omega) hk
      simp only [List.get_eq_getElem, List.getElem_replicate] at this
      norm_num at this
      exact ⟨by linarith [this.1], by linarith [this.2]⟩
    have hne : es ≠ [] := by rintro rfl; simp at hl
    obtain ⟨ts, h1, h2, h3, h4, -⟩ := C52_eta_times (tof := 7000) (t0 := t0) hne (by norm_num) hr
    obtain ⟨ts', h1', h5⟩ := fitness_eta j m (t0 := t0) hne (by rw [hnl, hl])
    rw [htof henc, h1] at h1'
    simp only [Res.ok.injEq, List.cons.injEq, true_and] at h1'
    subst h1'
    rw [hset _ henc] at h5
    have hsum : ts.sum ≤ 9270 := by linarith
    have hdec := (C52_decode 7000 t0 es).2.1 ts h1
    rw [hl] at hdec
    rw [htof henc, hnl]
    exact ⟨t0, ts, rfl, hdec, a1, a2, by omega, h3, hsum, hmain _ _ a1 a2 (by omega) h3 hsum h5⟩

/-- **C77 fails** for the description of the problems, which pygmo prints with the problem: it raises `NameError` whatever the
planets are called. -/
theorem C77_description_refuted (names : Res (List String)) : extraInfo names = .err .name := by
  have h : extraInfoSeq ∉ gymGlobals := by decide
  simp [extraInfo, h]

/-- The published solution is about this chromosome. -/
example (E : PyEnv) : ∃ (us : List JplLp) (p : Problem) (b : List Py × List Py),
    cassiniNames.map (fun n => JplLp.ofName n.toList) = us.map Res.ok ∧ cassini E .direct = .ok p ∧ p.bounds = .ok b ∧
    InBox b [-790, 158, 449, 55, 1025, 4554] ∧
    ∀ sv info, p.Evaluates (cassiniMga (us.map (JplLp.udpla sv info)) .direct) := by
  have hn : ∀ s ∈ JplLp.names, ∃ q, JplLp.ofName s.toList = .ok q := fun s hs => (C34_names s.toList).1.2 ⟨s, hs, by
    unfold JplLp.SameName; simp⟩
  obtain ⟨e, he⟩ := hn "earth" (by simp [JplLp.names])
  obtain ⟨v, hv⟩ := hn "venus" (by simp [JplLp.names])
  obtain ⟨j, hj⟩ := hn "jupiter" (by simp [JplLp.names])
  obtain ⟨s, hs⟩ := hn "saturn" (by simp [JplLp.names])
  obtain ⟨p, hp, -, -, hb, hev⟩ := C77_bounds E .direct
  refine ⟨[e, v, v, e, j, s], p, _, by
    simp only [cassiniNames, List.map_cons, List.map_nil, he, hv, hj, hs], hp, hb, ⟨rfl, rfl, fun i x hx => ?_⟩,
    fun sv info => (hev _).2 ⟨rfl, rfl, rfl, by simp, rfl, rfl, by simp [cassiniMga], rfl⟩⟩
  match i, hx with
  | 0, hx => exact ⟨-1000, 0, rfl, rfl, by norm_num at hx ⊢; constructor <;> linarith⟩
  | 1, hx => exact ⟨30, 400, rfl, rfl, by norm_num at hx ⊢; constructor <;> linarith⟩
  | 2, hx => exact ⟨100, 470, rfl, rfl, by norm_num at hx ⊢; constructor <;> linarith⟩
  | 3, hx => exact ⟨30, 400, rfl, rfl, by norm_num at hx ⊢; constructor <;> linarith⟩
  | 4, hx => exact ⟨400, 2000, rfl, rfl, by norm_num at hx ⊢; constructor <;> linarith⟩
  | 5, hx => exact ⟨1000, 6000, rfl, rfl, by norm_num at hx ⊢; constructor <;> linarith⟩
  | n + 6, hx => simp at hx

end Kep3.Mga
