import Verif.Planet.JplLp
import Verif.Planet.Props36

/-!
# Low-precision JPL planets: names, dates, elliptic domain
-/

namespace Kep3
open Real V3

namespace JplLp

/-- The planets of the low-precision ephemerides. -/
def names : List String := ["mercury", "venus", "earth", "mars", "jupiter", "saturn", "uranus", "neptune"]

/-- Same letters, the first possibly in upper case. -/
def SameName (s : List Char) (n : String) : Prop :=
  List.Forall₂ (fun c d => c = d ∨ ('A' ≤ c ∧ c ≤ 'Z' ∧ d.toNat = c.toNat + 32)) s n.toList

theorem toLower_iff (c d : Char) (h1 : 97 ≤ d.toNat) (h2 : d.toNat ≤ 122) :
    c.toLower = d ↔ c = d ∨ ('A' ≤ c ∧ c ≤ 'Z' ∧ d.toNat = c.toNat + 32) := by
  have hA : ('A' ≤ c) ↔ 65 ≤ c.toNat := by
    rw [Char.le_def, UInt32.le_iff_toNat_le]; rfl
  have hZ : (c ≤ 'Z') ↔ c.toNat ≤ 90 := by
    rw [Char.le_def, UInt32.le_iff_toNat_le]; rfl
  rw [hA, hZ]
  have ext : ∀ a b : Char, a = b ↔ a.toNat = b.toNat := fun a b =>
    ⟨fun h => h ▸ rfl, fun h => Char.ext (UInt32.toNat_inj.1 h)⟩
  rw [ext, ext]
  by_cases hc : 65 ≤ c.toNat ∧ c.toNat ≤ 90
  · have : c.toLower.toNat = c.toNat + 32 := by
      unfold Char.toLower
      have h : c.val ≥ 'A'.val ∧ c.val ≤ 'Z'.val := by
        constructor
        · rw [ge_iff_le, UInt32.le_iff_toNat_le]; exact hc.1
        · rw [UInt32.le_iff_toNat_le]; exact hc.2
      rw [dif_pos h]
      show (c.val + ('a'.val - 'A'.val)).toNat = c.val.toNat + 32
      rw [UInt32.toNat_add]
      have : ('a'.val - 'A'.val).toNat = 32 := by decide
      rw [this]
      have : c.val.toNat ≤ 90 := hc.2
      omega
    rw [this]
    omega
  · have : c.toLower = c := by
      unfold Char.toLower
      rw [dif_neg]
      rintro ⟨h, h'⟩
      rw [ge_iff_le, UInt32.le_iff_toNat_le] at h
      rw [UInt32.le_iff_toNat_le] at h'
      exact hc ⟨h, h'⟩
    rw [this]
    omega

theorem lower_iff (s : List Char) (n : String) (hn : n.toList.all fun d => decide (97 ≤ d.toNat ∧ d.toNat ≤ 122)) :
    s.map Char.toLower = n.toList ↔ SameName s n := by
  unfold SameName
  generalize n.toList = l at *
  induction l generalizing s with
  | nil => cases s <;> simp
  | cons d l ih =>
    cases s with
    | nil => simp
    | cons c s =>
      simp only [List.all_cons, Bool.and_eq_true, decide_eq_true_eq] at hn
      simp only [List.map_cons, List.cons.injEq, List.forall₂_cons]
      rw [ih s hn.2, toLower_iff c d hn.1.1 hn.1.2]

theorem lookup_some {low : List Char} {n : ℕ} :
    mappedPlanets.lookup low = some n ↔ (low, n) ∈ mappedPlanets := by
  unfold mappedPlanets
  constructor
  · intro h
    simp only [List.lookup] at h
    repeat' split at h
    all_goals
      first
      | contradiction
      | (rename_i heq
         have := eq_of_beq heq
         subst this
         have := Option.some.inj h
         subst this
         simp)
  · intro h
    simp only [List.mem_cons, Prod.mk.injEq, List.not_mem_nil, or_false] at h
    rcases h with ⟨rfl, rfl⟩ | ⟨rfl, rfl⟩ | ⟨rfl, rfl⟩ | ⟨rfl, rfl⟩ | ⟨rfl, rfl⟩ | ⟨rfl, rfl⟩ | ⟨rfl, rfl⟩ |
      ⟨rfl, rfl⟩ | ⟨rfl, rfl⟩ <;> decide

/-- What the constructor does, in the terms of the tables. -/
theorem ofName_ok {s : List Char} {p : JplLp} (h : ofName s = .ok p) : ∃ n el r f mu,
    data n = some (el, r, f, mu) ∧ p.elements0 = el.1 ∧ p.elementsDot = el.2 ∧ p.muCentralBody = MU_SUN ∧
      p.muSelf = mu ∧ p.radius = r ∧ p.safeRadius = f * r := by
  unfold ofName at h
  simp only [] at h
  split at h
  · exact nomatch h
  · split at h
    · exact nomatch h
    · rename_i n _ _ el r f mu hd
      obtain rfl := Res.ok.inj h
      exact ⟨n, el, r, f, mu, hd, rfl, rfl, rfl, rfl, rfl, rfl⟩

theorem data_cases {P : (Arr6 × Arr6) × ℝ × ℝ × ℝ → Prop} (h1 : P (mercury, 2440000, 1.1, 22032e9))
    (h2 : P (venus, 6052000, 1.1, 324859e9)) (h3 : P (earthMoon, 6378000, 1.1, 398600.4418e9))
    (h4 : P (mars, 3397000, 1.1, 42828e9)) (h5 : P (jupiter, 71492000, 9, 126686534e9))
    (h6 : P (saturn, 60330000, 1.1, 37931187e9)) (h7 : P (uranus, 25362000, 1.1, 5793939e9))
    (h8 : P (neptune, 24622000, 1.1, 6836529e9)) {n : ℕ} {d} (h : data n = some d) : P d := by
  match n, h with
  | 1, h => exact Option.some.inj h ▸ h1
  | 2, h => exact Option.some.inj h ▸ h2
  | 3, h => exact Option.some.inj h ▸ h3
  | 4, h => exact Option.some.inj h ▸ h4
  | 5, h => exact Option.some.inj h ▸ h5
  | 6, h => exact Option.some.inj h ▸ h6
  | 7, h => exact Option.some.inj h ▸ h7
  | 8, h => exact Option.some.inj h ▸ h8

/-- The secular elements between the years 1800 and 2050. -/
theorem secular {n : ℕ} {el r f mu} (h : data n = some (el, r, f, mu)) {T : ℝ} (h1 : -2.01 ≤ T) (h2 : T ≤ 0.5) :
    0 < el.1 0 + el.2 0 * T ∧ 0 < el.1 1 + el.2 1 * T ∧ el.1 1 + el.2 1 * T < 1 ∧
      -90 < el.1 2 + el.2 2 * T ∧ el.1 2 + el.2 2 * T < 90 := by
  refine data_cases (P := fun d => 0 < d.1.1 0 + d.1.2 0 * T ∧ 0 < d.1.1 1 + d.1.2 1 * T ∧
      d.1.1 1 + d.1.2 1 * T < 1 ∧ -90 < d.1.1 2 + d.1.2 2 * T ∧ d.1.1 2 + d.1.2 2 * T < 90)
      ?_ ?_ ?_ ?_ ?_ ?_ ?_ ?_ h
  all_goals
    simp only [mercury, venus, earthMoon, mars, jupiter, saturn, uranus, neptune, Matrix.cons_val_zero,
      Matrix.cons_val_one, Matrix.cons_val]
    norm_num at h1 h2 ⊢
    refine ⟨?_, ?_, ?_, ?_, ?_⟩ <;> linarith

end JplLp

open JplLp

/-! ## C34 -/

/-- **C34**: the constructor accepts exactly the eight names, in upper or lower case letters, and keeps the name in
lower case. -/
theorem C34_names (s : List Char) :
    ((∃ p, ofName s = .ok p) ↔ ∃ n ∈ JplLp.names, SameName s n) ∧
    (∀ p, ofName s = .ok p → ∃ n ∈ JplLp.names, SameName s n ∧ p.name = (n ++ " - jpl_lp").toList) ∧
    (SameName s "pluto" → ofName s = .err .logicError) ∧
    ((∀ n ∈ JplLp.names, ¬ SameName s n) → ¬ SameName s "pluto" → ofName s = .err .outOfRange) := by
  have e1 := lower_iff s "mercury" (by decide)
  have e2 := lower_iff s "venus" (by decide)
  have e3 := lower_iff s "earth" (by decide)
  have e4 := lower_iff s "mars" (by decide)
  have e5 := lower_iff s "jupiter" (by decide)
  have e6 := lower_iff s "saturn" (by decide)
  have e7 := lower_iff s "uranus" (by decide)
  have e8 := lower_iff s "neptune" (by decide)
  have e9 := lower_iff s "pluto" (by decide)
  have hok : ∀ p, ofName s = .ok p → ∃ n ∈ JplLp.names, SameName s n ∧ p.name = (n ++ " - jpl_lp").toList := by
    intro p h
    unfold ofName at h
    simp only [] at h
    split at h
    · exact nomatch h
    · rename_i n hl
      rw [lookup_some] at hl
      split at h
      · exact nomatch h
      · rename_i el r f mu hd
        obtain rfl := Res.ok.inj h
        simp only [mappedPlanets, List.mem_cons, Prod.mk.injEq, List.not_mem_nil, or_false] at hl
        unfold JplLp.names
        rcases hl with ⟨h, rfl⟩ | ⟨h, rfl⟩ | ⟨h, rfl⟩ | ⟨h, rfl⟩ | ⟨h, rfl⟩ | ⟨h, rfl⟩ | ⟨h, rfl⟩ | ⟨h, rfl⟩ | ⟨h, rfl⟩
        · exact ⟨"mercury", by simp, e1.1 h, by simp only [h]; decide⟩
        · exact ⟨"venus", by simp, e2.1 h, by simp only [h]; decide⟩
        · exact ⟨"earth", by simp, e3.1 h, by simp only [h]; decide⟩
        · exact ⟨"mars", by simp, e4.1 h, by simp only [h]; decide⟩
        · exact ⟨"jupiter", by simp, e5.1 h, by simp only [h]; decide⟩
        · exact ⟨"saturn", by simp, e6.1 h, by simp only [h]; decide⟩
        · exact ⟨"uranus", by simp, e7.1 h, by simp only [h]; decide⟩
        · exact ⟨"neptune", by simp, e8.1 h, by simp only [h]; decide⟩
        · exact nomatch hd
  have hmk : ∀ n m d, s.map Char.toLower = n → (n, m) ∈ mappedPlanets → data m = some d → ∃ p, ofName s = .ok p := by
    intro n m d h1 h2 h3
    unfold ofName
    simp only [h1, lookup_some.2 h2, h3]
    exact ⟨_, rfl⟩
  refine ⟨⟨fun ⟨p, h⟩ => ?_, ?_⟩, hok, ?_, ?_⟩
  · obtain ⟨n, h1, h2, -⟩ := hok p h
    exact ⟨n, h1, h2⟩
  · rintro ⟨n, hn, h⟩
    simp only [JplLp.names, List.mem_cons, List.not_mem_nil, or_false] at hn
    rcases hn with rfl | rfl | rfl | rfl | rfl | rfl | rfl | rfl
    · exact hmk _ 1 _ (e1.2 h) (by simp [mappedPlanets]) rfl
    · exact hmk _ 2 _ (e2.2 h) (by simp [mappedPlanets]) rfl
    · exact hmk _ 3 _ (e3.2 h) (by simp [mappedPlanets]) rfl
    · exact hmk _ 4 _ (e4.2 h) (by simp [mappedPlanets]) rfl
    · exact hmk _ 5 _ (e5.2 h) (by simp [mappedPlanets]) rfl
    · exact hmk _ 6 _ (e6.2 h) (by simp [mappedPlanets]) rfl
    · exact hmk _ 7 _ (e7.2 h) (by simp [mappedPlanets]) rfl
    · exact hmk _ 8 _ (e8.2 h) (by simp [mappedPlanets]) rfl
  · intro h
    unfold ofName
    simp only [e9.2 h, lookup_some.2 (show ("pluto".toList, 9) ∈ mappedPlanets by simp [mappedPlanets])]
    rfl
  · intro h1 h2
    unfold ofName
    simp only []
    split
    · rfl
    · rename_i n hl
      rw [lookup_some] at hl
      exfalso
      simp only [JplLp.names, List.mem_cons, List.not_mem_nil, or_false, forall_eq_or_imp, forall_eq] at h1
      obtain ⟨a1, a2, a3, a4, a5, a6, a7, a8⟩ := h1
      simp only [mappedPlanets, List.mem_cons, Prod.mk.injEq, List.not_mem_nil, or_false] at hl
      rcases hl with ⟨h, -⟩ | ⟨h, -⟩ | ⟨h, -⟩ | ⟨h, -⟩ | ⟨h, -⟩ | ⟨h, -⟩ | ⟨h, -⟩ | ⟨h, -⟩ | ⟨h, -⟩
      · exact a1 (e1.1 h)
      · exact a2 (e2.1 h)
      · exact a3 (e3.1 h)
      · exact a4 (e4.1 h)
      · exact a5 (e5.1 h)
      · exact a6 (e6.1 h)
      · exact a7 (e7.1 h)
      · exact a8 (e8.1 h)
      · exact h2 (e9.1 h)

/-- The accepted planets have a gravity parameter, and a safe radius outside of the body. -/
theorem C34_physical {s : List Char} {p : JplLp} (h : ofName s = .ok p) :
    p.muCentralBody = MU_SUN ∧ 0 < p.muSelf ∧ 0 < p.radius ∧ p.radius < p.safeRadius := by
  obtain ⟨n, el, r, f, mu, hd, -, -, h1, h2, h3, h4⟩ := ofName_ok h
  rw [h1, h2, h3, h4]
  refine ⟨rfl, ?_⟩
  exact data_cases (P := fun d => 0 < d.2.2.2 ∧ 0 < d.2.1 ∧ d.2.1 < d.2.2.1 * d.2.1) (by norm_num) (by norm_num)
    (by norm_num) (by norm_num) (by norm_num) (by norm_num) (by norm_num) (by norm_num) hd

/-- **C34**: dates outside of the interval are refused by the ephemeris, the elements and the period. -/
theorem C34_dates (sv : Solver) (info : Res String) (p : JplLp) {t : ℝ} (ht : t ≤ -73048 ∨ 18263 ≤ t) (ty : ElType) :
    Planet.eph (p.udpla sv info) t = .err .domainError ∧ Planet.elements (p.udpla sv info) t ty = .err .domainError ∧
      Planet.period (p.udpla sv info) t = .err .domainError := by
  have hf : fElements sv p t = .err .domainError := by unfold fElements; rw [if_pos ht]
  have he : JplLp.eph sv p t = .err .domainError := by unfold JplLp.eph; rw [hf]; rfl
  refine ⟨he, ?_, ?_⟩
  · show JplLp.elements sv p t ty = _
    unfold JplLp.elements; rw [hf]; rfl
  · exact (C08_period _ t).2.2.1 _ _ rfl rfl he

/-- **C34**, on doubles: a NaN date is not refused; all others outside of the interval are, infinities included. -/
theorem C34_dates_double (t : Dbl) :
    dateRefused t = false ↔ t = .nan ∨ ∃ q : ℚ, t = .fin q ∧ -73048 < q ∧ q < 18263 := by
  unfold dateRefused Dbl.le
  cases t with
  | nan => simp [Dbl.lt, Dbl.beq]
  | ninf => simp [Dbl.lt, Dbl.beq]
  | pinf => simp [Dbl.lt, Dbl.beq]
  | fin q =>
    simp only [Dbl.lt_fin, Dbl.beq, Bool.or_eq_false_iff, decide_eq_false_iff_not, not_lt, reduceCtorEq, Dbl.fin.injEq,
      exists_eq_left', false_or]
    constructor
    · rintro ⟨⟨h1, h2⟩, h3, h4⟩
      exact ⟨lt_of_le_of_ne h1 (Ne.symm h2), lt_of_le_of_ne h3 (Ne.symm h4)⟩
    · rintro ⟨h1, h2⟩
      exact ⟨⟨h1.le, h1.ne'⟩, h2.le, h2.ne'⟩

/-! ## C35 -/

/-- The time of the secular elements, in centuries. -/
theorem century {t : ℝ} (h1 : -73048 < t) (h2 : t < 18263) :
    -2.01 ≤ (t - 0.5) / 36525 ∧ (t - 0.5) / 36525 ≤ 0.5 := by
  constructor
  · rw [le_div_iff₀ (by norm_num)]; norm_num; linarith
  · rw [div_le_iff₀ (by norm_num)]; norm_num; linarith

theorem halfAngle {x : ℝ} (h1 : -90 < x) (h2 : x < 90) : cos (x * DEG2RAD / 2) ≠ 0 := by
  unfold DEG2RAD
  have := Real.pi_pos
  refine (cos_pos_of_mem_Ioo ⟨?_, ?_⟩).ne'
  · nlinarith
  · nlinarith

/-- **C35**: at all dates of the interval all eight planets are on ellipses, and the ephemeris and the elements of all types
are returned without raising; they are numbers unless the planet is exactly at its apocentre. The elements are the
secular ones, with the mean anomaly up to full turns; the state is the one of the elements. The period is the one of the
semi-major axis. -/
theorem C35_ellipse {sv : Solver} (hsv : sv.Sound) (hq : sv.Quick) (info : Res String) {s : List Char} {p : JplLp}
    (hp : ofName s = .ok p) {t : ℝ} (h1 : -73048 < t) (h2 : t < 18263) {T M : ℝ} {u : Arr6} (hT : T * 36525 = t - 1 / 2)
    (hu : ∀ i, u i = p.elements0 i + p.elementsDot i * T) (hM : M = (u 3 - u 4) * (π / 180)) :
    (0 < u 0 ∧ 0 < u 1 ∧ u 1 < 1) ∧
    (∃ y, Planet.eph (p.udpla sv info) t = .ok y) ∧
    (∀ ty, ty ≠ .posvel → ∃ y, Planet.elements (p.udpla sv info) t ty = .ok y) ∧
    (cos M ≠ -1 → ∃ q x m g,
      Planet.eph (p.udpla sv info) t = .ok (spread (some x)) ∧
      Planet.elements (p.udpla sv info) t .kepF = .ok (some q) ∧
      Planet.elements (p.udpla sv info) t .kepM = .ok (some m) ∧
      Planet.elements (p.udpla sv info) t .meq = .ok (some g) ∧
      q 0 = u 0 * AU ∧ q 1 = u 1 ∧ q 2 = u 2 * (π / 180) ∧ q 3 = u 5 * (π / 180) ∧ q 4 = (u 4 - u 5) * (π / 180) ∧
      (∀ i, i ≠ 5 → m i = q i) ∧ (∃ j : ℤ, m 5 = M + 2 * π * j) ∧
      par2ic (Par.ofArr q) MU_SUN = .ok (some x) ∧ eq2ic (Meq.ofArr g) MU_SUN false = some x ∧
      energy x MU_SUN = -MU_SUN / (2 * q 0) ∧
      Planet.period (p.udpla sv info) t = .ok (some (2 * π * √(q 0 ^ 3 / MU_SUN)))) := by
  obtain ⟨n, el, r, f, mu, hd, d1, d2, d3, -⟩ := ofName_ok hp
  obtain ⟨c1, c2⟩ := century h1 h2
  have hTT : (t - 0.5) / 36525 = T := by
    rw [div_eq_iff (by norm_num), hT]; norm_num
  rw [hTT] at c1 c2
  obtain ⟨s1, s2, s3, s4, s5⟩ := secular hd c1 c2
  have hup : p.updated t = u := by
    funext i; rw [hu]; unfold JplLp.updated; simp only [hTT]
  have hu' : ∀ i, u i = el.1 i + el.2 i * T := fun i => by rw [hu, d1, d2]
  rw [← hu'] at s1 s2 s3 s4 s5
  have hrange : ¬ (t ≤ -73048 ∨ 18263 ≤ t) := by push Not; exact ⟨h1, h2⟩
  have hD : DEG2RAD = π / 180 := rfl
  have hMd : M = (u 3 - u 4) * DEG2RAD := hM
  have hae : 0 < u 0 * AU * (1 - u 1) := mul_pos (mul_pos s1 AU_pos) (by linarith)
  have hgood : ∀ f, ({ a := u 0 * AU, e := u 1, i := u 2 * DEG2RAD, Om := u 5 * DEG2RAD, om := (u 4 - u 5) * DEG2RAD, f := f } : Par).Good := by
    intro f
    refine ⟨s2.le, hae, ?_⟩
    have := neg_one_le_cos f
    have h3 : -u 1 ≤ u 1 * cos f := by
      have := mul_le_mul_of_nonneg_left this s2.le
      linarith
    show 0 < 1 + u 1 * cos f
    linarith
  -- the anomaly
  have hne : m2e sv M (u 1) ≠ .err .domainError := (C14_error_only_from_solver sv hq M (u 1) _).1
  obtain ⟨E, hE, a1, a2, ⟨j, hj⟩, -⟩ := (C14_m2e sv hsv s2.le s3 M).resolve_left hne
  have hm : m2f sv M (u 1) = .ok (e2f E (u 1)) := by
    unfold m2f; rw [if_neg s3.not_ge, hE]; rfl
  have hf : fElements sv p t = .ok ((e2f E (u 1)).map fun f =>
      { a := u 0 * AU, e := u 1, i := u 2 * DEG2RAD, Om := u 5 * DEG2RAD, om := (u 4 - u 5) * DEG2RAD, f := f }) := by
    unfold fElements
    rw [if_neg hrange]
    simp only [hup, ← hMd, hm, Res.ok_bind, Res.pure_eq]
  refine ⟨⟨s1, s2, s3⟩, ?_, ?_, ?_⟩
  · show ∃ y, JplLp.eph sv p t = _
    unfold JplLp.eph
    rw [hf]
    cases e2f E (u 1) with
    | none => exact ⟨_, rfl⟩
    | some f =>
      simp only [Res.ok_bind, Option.map_some, d3, par2ic_run (hgood f) MU_SUN_pos]
      exact ⟨_, rfl⟩
  · intro ty hty
    show ∃ y, JplLp.elements sv p t ty = _
    unfold JplLp.elements
    rw [hf]
    cases ty with
    | posvel => exact absurd rfl hty
    | _ => exact ⟨_, rfl⟩
  · intro hc
    have a3 : E ≠ π := by
      rintro rfl
      apply hc
      rw [sin_pi, mul_zero, sub_zero] at hj
      have : M = π + (-j : ℤ) * (2 * π) := by push_cast; linarith
      rw [this, cos_add_int_mul_two_pi, cos_pi]
    have a4 : E < π := lt_of_le_of_ne a2 a3
    obtain ⟨f, hf2, f1, f2, hback, -⟩ := (C12_ellipse s2.le s3).1 E a1 a4
    rw [hf2, Option.map_some] at hf
    have hg := hgood f
    set q : Par := { a := u 0 * AU, e := u 1, i := u 2 * DEG2RAD, Om := u 5 * DEG2RAD, om := (u 4 - u 5) * DEG2RAD, f := f } with hqd
    have hrun := par2ic_run hg MU_SUN_pos
    have hfm : f2m q.f q.e = some (M + 2 * π * j) := by
      show f2m f (u 1) = _
      unfold f2m e2m
      rw [if_neg s3.not_ge, hback]
      simp [s3.not_ge, hj]
    obtain ⟨m, y, g1, g2, g3⟩ := C20_same_state q false MU_SUN_pos hg.e_nonneg hg.ae hg.den (halfAngle s4 s5)
      (fun h => nomatch h)
    rw [hrun] at g3
    obtain rfl := Option.some.inj (Res.ok.inj g3)
    obtain ⟨hen, hr0, -⟩ := energy_parState hg MU_SUN_pos
    have heph : JplLp.eph sv p t = .ok (spread (some (parState q MU_SUN))) := by
      unfold JplLp.eph
      rw [hf]
      simp only [Res.ok_bind, d3, hrun]
      rfl
    have hper : Planet.period (p.udpla sv info) t = .ok (periodFromEnergy (parState q MU_SUN) MU_SUN) :=
      (C08_period (p.udpla sv info) t).2.1 _ _ rfl (by show some (Res.ok p.muCentralBody) = _; rw [d3]) heph
    have q0 : q.arr 0 = u 0 * AU := rfl
    refine ⟨q.arr, parState q MU_SUN, Par.arr { q with f := M + 2 * π * j }, m.arr, heph, ?_, ?_, ?_, rfl, rfl, rfl, rfl, rfl,
      Par.arr_setF q _, ⟨j, rfl⟩, by rw [Par.ofArr_arr]; exact hrun, by rw [Meq.ofArr_arr]; exact g2, ?_, ?_⟩
    · show JplLp.elements sv p t .kepF = _
      unfold JplLp.elements
      rw [hf]
      rfl
    · show JplLp.elements sv p t .kepM = _
      unfold JplLp.elements
      rw [hf]
      simp [hfm]
    · show JplLp.elements sv p t .meq = _
      unfold JplLp.elements
      rw [hf]
      simp [g1]
    · rw [q0]; exact hen
    · rw [hper, ← ellipsePeriod_eq hg MU_SUN_pos, q0]
      have ha : 0 < u 0 * AU := mul_pos s1 AU_pos
      have hmu := MU_SUN_pos
      show Res.ok (if u 0 * AU < 0 then none else Keplerian.ellipsePeriod (u 0 * AU) MU_SUN) = _
      rw [if_neg ha.not_gt]
      unfold Keplerian.ellipsePeriod
      generalize u 0 * AU = a at *
      rw [div?_ok hmu.ne']
      simp only [Option.bind_eq_bind, Option.bind_some, sqrt?_ok (show 0 ≤ a * a * a / MU_SUN by positivity)]
      rw [show a * a * a = a ^ 3 by ring, mul_comm π 2]
      rfl

/-- The inclination of the Earth is negative from the beginning of year 2000 on (and earlier than that): outside of the
range [0, π] of the other element computations. -/
theorem C35_earth_inclination {sv : Solver} (info : Res String) {t : ℝ} (h1 : 0 ≤ t)
    (h2 : t < 18263) : ∃ p, ofName "earth".toList = .ok p ∧
      ∀ q, Planet.elements (p.udpla sv info) t .kepF = .ok (some q) → q 2 < 0 := by
  obtain ⟨p, hp⟩ := (C34_names "earth".toList).1.2 ⟨"earth", by simp [JplLp.names], by unfold SameName; simp⟩
  refine ⟨p, hp, fun q hqq => ?_⟩
  have hel : p.elements0 = earthMoon.1 ∧ p.elementsDot = earthMoon.2 := by
    unfold ofName at hp
    have hl : ("earth".toList.map Char.toLower) = "earth".toList := by decide
    simp only [hl, lookup_some.2 (show ("earth".toList, 3) ∈ mappedPlanets by simp [mappedPlanets])] at hp
    obtain rfl := Res.ok.inj hp
    exact ⟨rfl, rfl⟩
  have hq2 : q 2 = p.updated t 2 * DEG2RAD := by
    change JplLp.elements sv p t .kepF = _ at hqq
    unfold JplLp.elements fElements at hqq
    rw [if_neg (by push Not; exact ⟨by linarith, h2⟩)] at hqq
    simp only [] at hqq
    cases hm : m2f sv ((p.updated t 3 - p.updated t 4) * DEG2RAD) (p.updated t 1) with
    | ok f =>
      rw [hm] at hqq
      cases f with
      | none => exact nomatch hqq
      | some f =>
        obtain rfl := Option.some.inj (Res.ok.inj hqq)
        rfl
    | err e => rw [hm] at hqq; exact nomatch hqq
    | ub => rw [hm] at hqq; exact nomatch hqq
  rw [hq2]
  have hneg : p.updated t 2 < 0 := by
    unfold JplLp.updated
    rw [hel.1, hel.2]
    simp only [earthMoon, Matrix.cons_val]
    norm_num
    have : -0.5 / 36525 ≤ (t - 1 / 2) / 36525 := by
      rw [div_le_div_iff_of_pos_right (by norm_num)]; norm_num; linarith
    norm_num at this
    linarith
  have : 0 < DEG2RAD := by unfold DEG2RAD; positivity
  exact mul_neg_of_neg_of_pos hneg this

/-! ## Concrete cases -/

/-- "EaRtH" is accepted, "earth " is not. -/
example : (∃ p, ofName "EaRtH".toList = .ok p) ∧ ofName "earth ".toList = .err .outOfRange := by
  constructor
  · exact (C34_names _).1.2 ⟨"earth", by simp [JplLp.names], by unfold SameName; simp⟩
  · refine (C34_names _).2.2.2 ?_ ?_
    · simp only [JplLp.names, List.mem_cons, List.not_mem_nil, or_false, forall_eq_or_imp, forall_eq, SameName]
      simp
    · simp [SameName]

/-- Mars today: the ephemeris is a state on the orbit. -/
example : ∃ p y, ofName "mars".toList = .ok p ∧ Planet.eph (p.udpla idealSolver (.ok "")) 9815 = .ok y := by
  obtain ⟨p, hp⟩ := (C34_names "mars".toList).1.2 ⟨"mars", by simp [JplLp.names], by unfold SameName; simp⟩
  obtain ⟨-, ⟨y, hy⟩, -⟩ := C35_ellipse idealSolver_sound idealSolver_quick (.ok "") hp (t := 9815) (by norm_num)
    (by norm_num) (T := (9815 - 1 / 2) / 36525) (by norm_num) (fun i => rfl) rfl
  exact ⟨p, y, hp, hy⟩

end Kep3
